/-
Simulation of a process with some listeners by one with others.
-/
import Verif.Proofs.Process

namespace Ratel

namespace Proc

/-- The two processes are alike but for their listeners; those of the second have all stopped once those of the first have, and not before. -/
structure Alike (L' : Nat) (p q : Proc) : Prop where
  sys : q.sys = p.sys
  accepted : q.accepted = p.accepted
  messagingUp : q.messagingUp = p.messagingUp
  main : q.main = p.main
  listeners : q.listeners = List.replicate L' (p.listeners.any (·))

theorem Alike.free {L' W : Nat} {p q : Proc} (h : Alike L' p q) : q.free W = p.free W := by
  unfold Proc.free Proc.spinning Proc.gone
  rw [h.sys, h.accepted, h.main]

theorem any_replicate {n : Nat} (h : 0 < n) (b : Bool) : (List.replicate n b).any (·) = b := by
  cases n with
  | zero => omega
  | succ n => cases b <;> simp [List.replicate_succ]

theorem all_not (l : List Bool) : l.all (!·) = !l.any (·) := by
  induction l with
  | nil => rfl
  | cons b l ih => cases b <;> simp_all

/-- Stop the first `n` listeners. -/
def stops (n : Nat) : List PStep := (List.range n).map .stopListening

theorem run_stops (env : Env) (W : Nat) (q : Proc) (hf : q.free W = true) (hc : q.sys.ctrlC = true) (n : Nat) (hn : n ≤ q.listeners.length) :
    run env W q (stops n) = { q with listeners := List.replicate n false ++ q.listeners.drop n } := by
  induction n with
  | zero => simp [stops, run]
  | succ n ih =>
    have : stops (n + 1) = stops n ++ [.stopListening n] := by simp [stops, List.range_succ]
    rw [this]
    unfold run at ih ⊢
    rw [List.foldl_append, ih (by omega)]
    have hf' : Proc.free W { q with listeners := List.replicate n false ++ q.listeners.drop n } = true := hf
    simp only [List.foldl_cons, List.foldl_nil, step, hf', hc, Bool.and_self, ↓reduceIte]
    congr 1
    rw [List.set_append_right _ _ (by simp)]
    simp only [List.length_replicate, Nat.sub_self]
    rw [List.drop_eq_getElem_cons (by omega : n < q.listeners.length), List.set_cons_zero, List.replicate_succ', List.append_assoc]
    rfl

theorem alike_step (env : Env) (W L' : Nat) (hL' : 0 < L') (g : ConnId → Nat) (hg : ∀ c, g c < L') {p q : Proc} (h : Alike L' p q) (st : PStep) :
    ∃ ps, (∀ l c, PStep.accept l c ∈ ps → l = g c) ∧ Alike L' (step env W p st) (run env W q ps) := by
  have hcases : (p.listeners.any (·)) = (q.listeners.any (·)) := by rw [h.listeners, any_replicate hL']
  cases st with
  | accept l c =>
    by_cases hup : p.listeners[l]? = some true
    · refine ⟨[.accept (g c) c], fun l' c' hm => ?_, ?_⟩
      · rw [List.mem_singleton] at hm; cases hm; rfl
      · show Alike L' _ (step env W q (.accept (g c) c))
        unfold step
        simp only [h.free, h.accepted]
        have hany : p.listeners.any (·) = true := List.any_eq_true.mpr ⟨true, List.mem_of_getElem? hup, rfl⟩
        have hq : q.listeners[g c]? = some true := by rw [h.listeners, hany]; simp [hg c]
        rw [hup, hq]
        split
        · exact ⟨h.sys, rfl, h.messagingUp, h.main, h.listeners⟩
        · exact h
    · refine ⟨[], fun l c hm => by simp at hm, ?_⟩
      have : step env W p (.accept l c) = p := by
        simp only [step, hup, beq_iff_eq, Bool.and_eq_true, false_and, and_false, ↓reduceIte]
      rw [this]
      exact h
  | task st =>
    refine ⟨[.task st], fun l c hm => by simp at hm, ?_⟩
    have hr : q.runnable st = p.runnable st := by cases st <;> simp only [runnable, h.accepted]
    show Alike L' (step env W p (.task st)) (step env W q (.task st))
    simp only [step, h.free, hr]
    split
    · exact ⟨by rw [h.sys], h.accepted, h.messagingUp, h.main, h.listeners⟩
    · exact h
  | stopListening l =>
    by_cases hc : (p.free W && p.sys.ctrlC) = true
    · by_cases hany : (p.listeners.set l false).any (·) = p.listeners.any (·)
      · refine ⟨[], fun l c hm => by simp at hm, ?_⟩
        show Alike L' (step env W p (.stopListening l)) q
        simp only [step, hc, ↓reduceIte]
        exact ⟨h.sys, h.accepted, h.messagingUp, h.main, by rw [hany]; exact h.listeners⟩
      · refine ⟨stops L', fun l c hm => by simp [stops] at hm, ?_⟩
        have hf : (p.listeners.set l false).any (·) = false := by
          cases h1 : (p.listeners.set l false).any (·) with
          | false => rfl
          | true =>
            obtain ⟨b, hb, ht⟩ := List.any_eq_true.mp h1
            have hm : true ∈ p.listeners := by
              subst ht
              rcases List.mem_or_eq_of_mem_set hb with hb | hb
              · exact hb
              · cases hb
            rw [h1] at hany
            exact absurd (List.any_eq_true.mpr ⟨true, hm, rfl⟩) (fun e => hany e.symm)
        rw [Bool.and_eq_true] at hc
        rw [run_stops env W q (by rw [h.free]; exact hc.1) (by rw [h.sys]; exact hc.2) L' (by rw [h.listeners]; simp)]
        simp only [step, hc, Bool.and_self, ↓reduceIte]
        refine ⟨h.sys, h.accepted, h.messagingUp, h.main, ?_⟩
        simp only [hf]
        rw [h.listeners]
        simp
    · refine ⟨[], fun l c hm => by simp at hm, ?_⟩
      show Alike L' (step env W p (.stopListening l)) q
      simp only [step, hc]
      exact h
  | messagingEnds =>
    refine ⟨[.messagingEnds], fun l c hm => by simp at hm, ?_⟩
    show Alike L' (step env W p .messagingEnds) (step env W q .messagingEnds)
    simp only [step, h.free, h.sys]
    split
    · exact ⟨rfl, h.accepted, rfl, h.main, h.listeners⟩
    · exact h
  | signal =>
    refine ⟨[.signal], fun l c hm => by simp at hm, ?_⟩
    show Alike L' (stepSignal p) (stepSignal q)
    obtain ⟨qs, qa, ql, qm, qp⟩ := q
    obtain ⟨rfl, rfl, rfl, rfl, rfl⟩ := h
    obtain ⟨ps, pa, pl, pm, pp⟩ := p
    unfold stepSignal
    simp only [any_replicate hL']
    cases pp <;> simp only
    · split
      · exact ⟨rfl, rfl, rfl, rfl, rfl⟩
      · exact ⟨rfl, rfl, rfl, rfl, rfl⟩
    all_goals exact ⟨rfl, rfl, rfl, rfl, rfl⟩
  | main =>
    refine ⟨[.main], fun l c hm => by simp at hm, ?_⟩
    show Alike L' (stepMain p) (stepMain q)
    have hs : q.spinning = p.spinning := by unfold spinning; rw [h.sys, h.accepted]
    obtain ⟨qs, qa, ql, qm, qp⟩ := q
    obtain ⟨rfl, rfl, rfl, rfl, rfl⟩ := h
    obtain ⟨ps, pa, pl, pm, pp⟩ := p
    unfold stepMain
    rw [hs]
    simp only [all_not, any_replicate hL']
    cases pp <;> simp only
    · exact ⟨rfl, rfl, rfl, rfl, rfl⟩
    · split <;> exact ⟨rfl, rfl, rfl, rfl, rfl⟩
    · split <;> exact ⟨rfl, rfl, rfl, rfl, rfl⟩
    · split <;> exact ⟨rfl, rfl, rfl, rfl, rfl⟩
    · split <;> exact ⟨rfl, rfl, rfl, rfl, rfl⟩
    · split <;> exact ⟨rfl, rfl, rfl, rfl, rfl⟩
    · exact ⟨rfl, rfl, rfl, rfl, rfl⟩

theorem alike_run (env : Env) (W L' : Nat) (hL' : 0 < L') (g : ConnId → Nat) (hg : ∀ c, g c < L') {p q : Proc} (h : Alike L' p q) (ps : List PStep) :
    ∃ ps', (∀ l c, PStep.accept l c ∈ ps' → l = g c) ∧ Alike L' (run env W p ps) (run env W q ps') := by
  induction ps generalizing p q with
  | nil => exact ⟨[], fun l c hm => by simp at hm, h⟩
  | cons st ps ih =>
    obtain ⟨a, ha, h1⟩ := alike_step env W L' hL' g hg h st
    obtain ⟨b, hb, h2⟩ := ih h1
    refine ⟨a ++ b, fun l c hm => ?_, ?_⟩
    · rcases List.mem_append.mp hm with hm | hm
      · exact ha l c hm
      · exact hb l c hm
    · have : run env W q (a ++ b) = run env W (run env W q a) b := by unfold run; rw [List.foldl_append]
      rw [this]
      exact h2

end Proc

end Ratel
