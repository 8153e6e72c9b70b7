/-
Runs of the password tool, call by call.
-/
import Verif.Spec.Desk
import Verif.Proofs.Decoder

namespace Ratel.Passwd

open Spec (bytesOf)

theorem fromUtf8_bytesOf (t : List Char) : fromUtf8 (bytesOf t) = some (String.ofList t) := fromUtf8_strBytes _

/-- A run on its own, from a text: what it has done so far. -/
def Alone (ci : CaseEq) (t : List Char) (file : Option (List UInt8)) (job : Job) : Prop :=
  match job.stage with
  | .reading got => file = some (bytesOf t) ∧ got <+: bytesOf t
  | .opening content => file = some (bytesOf t) ∧ content = bytesOf (run ci job.user job.action t) ∧ (updated ci job.user job.action t).isSome = true
  | .writing content n => content = bytesOf (run ci job.user job.action t) ∧ file = some (content.take n) ∧ n ≤ content.length
  | .finished => file = some (bytesOf (run ci job.user job.action t))
  | .panicked => file = some (bytesOf t) ∨ ∃ n, file = some ((bytesOf (run ci job.user job.action t)).take n)

theorem afterRead_alone (ci : CaseEq) (t : List Char) (job : Job) :
    Alone ci t (some (bytesOf t)) { job with stage := afterRead ci job (bytesOf t) } := by
  unfold afterRead
  rw [fromUtf8_bytesOf]
  simp only [String.toList_ofList]
  cases h : updated ci job.user job.action t with
  | none => simp [Alone, run, h]
  | some c => simp [Alone, run, h, bytesOf]

theorem writeAt_end (a b : List UInt8) : writeAt a a.length b = a ++ b := by
  unfold writeAt
  rw [List.take_length, Nat.sub_self, List.drop_eq_nil_of_le (by omega)]
  simp

theorem alone_step {ci : CaseEq} {t : List Char} {file : Option (List UInt8)} {job : Job} (h : Alone ci t file job) (o : Outcome) :
    Alone ci t (stepJob ci file job o).1 { job with stage := (stepJob ci file job o).2 } := by
  obtain ⟨user, action, stage⟩ := job
  cases o with
  | fails =>
    cases stage with
    | reading got => exact .inl h.1
    | opening c => exact .inl h.1
    | writing c n =>
      obtain ⟨h1, h2, h3⟩ := h
      exact .inr ⟨n, by rw [← h1]; exact h2⟩
    | finished => exact h
    | panicked => exact h
  | moves k =>
    cases stage with
    | reading got =>
      obtain ⟨rfl, h2⟩ := h
      simp only [stepJob]
      split
      · rename_i h0
        have hlen : (bytesOf t).drop got.length = [] := by
          cases hd : (bytesOf t).drop got.length with
          | nil => rfl
          | cons a as => rw [hd] at h0; simp at h0
        have : got = bytesOf t := by
          obtain ⟨r, hr⟩ := h2
          rw [← hr, List.drop_left] at hlen
          rw [← hr, hlen, List.append_nil]
        subst this
        exact afterRead_alone ci t ⟨user, action, _⟩
      · obtain ⟨r, hr⟩ := h2
        refine ⟨rfl, ?_⟩
        rw [← hr, List.drop_left]
        exact List.prefix_append_right_inj got |>.mpr (List.take_prefix _ _)
    | opening c =>
      obtain ⟨h1, h2, _⟩ := h
      exact ⟨h2, by simp [stepJob], Nat.zero_le _⟩
    | writing c n =>
      obtain ⟨h1, rfl, h3⟩ := h
      simp only [stepJob]
      split
      · rename_i hle
        show some (c.take n) = some (bytesOf (run ci user action t))
        rw [List.take_of_length_le hle, h1]
      · refine ⟨h1, ?_, ?_⟩
        · rw [Option.getD_some]
          have := writeAt_end (c.take n) ((c.drop n).take (k + 1))
          rw [List.length_take, Nat.min_eq_left h3] at this
          rw [this, List.take_add (i := n)]
          have hm : (c.drop n).take ((c.drop n).take (k + 1)).length = (c.drop n).take (k + 1) := by
            rw [List.take_eq_take_iff, List.length_take, List.length_drop]
            omega
          rw [hm]
        · rw [List.length_take, List.length_drop]
          omega
    | finished => exact h
    | panicked => exact h

namespace Desk

theorem run_append (ci : CaseEq) (d : Desk) (xs ys : List (Nat × Outcome)) : run ci d (xs ++ ys) = run ci (run ci d xs) ys := List.foldl_append

theorem run_cons (ci : CaseEq) (d : Desk) (x : Nat × Outcome) (xs : List (Nat × Outcome)) : run ci d (x :: xs) = run ci (step ci d x) xs := rfl

theorem step_own (ci : CaseEq) (d : Desk) (i : Nat) (o : Outcome) :
    (step ci d (i, o)).jobs i = { d.jobs i with stage := (stepJob ci d.file (d.jobs i) o).2 }
    ∧ (step ci d (i, o)).file = (stepJob ci d.file (d.jobs i) o).1 := by
  simp [step]

theorem step_other (ci : CaseEq) (d : Desk) {i j : Nat} (h : j ≠ i) (o : Outcome) : (step ci d (i, o)).jobs j = d.jobs j := by
  simp [step, h]

/-- The calls of others do not change where a run is. -/
theorem run_other (ci : CaseEq) {j : Nat} {xs : List (Nat × Outcome)} (h : ∀ x ∈ xs, x.1 ≠ j) (d : Desk) : (run ci d xs).jobs j = d.jobs j := by
  induction xs generalizing d with
  | nil => rfl
  | cons x xs ih =>
    rw [run_cons, ih fun y hy => h y (List.mem_cons_of_mem _ hy)]
    exact step_other ci d (Ne.symm (h x List.mem_cons_self)) x.2

/-- The user and what is to be done stay the same. -/
theorem run_task (ci : CaseEq) (xs : List (Nat × Outcome)) (d : Desk) (j : Nat) :
    ((run ci d xs).jobs j).user = (d.jobs j).user ∧ ((run ci d xs).jobs j).action = (d.jobs j).action := by
  induction xs generalizing d with
  | nil => exact ⟨rfl, rfl⟩
  | cons x xs ih =>
    obtain ⟨h1, h2⟩ := ih (step ci d x)
    rw [run_cons, h1, h2]
    unfold step
    by_cases hj : j = x.1 <;> simp [hj]

/-- A run on its own. -/
theorem alone_run {ci : CaseEq} {t : List Char} {i : Nat} (os : List Outcome) {d : Desk} (h : Alone ci t d.file (d.jobs i)) :
    Alone ci t (run ci d (os.map (i, ·))).file ((run ci d (os.map (i, ·))).jobs i) := by
  induction os generalizing d with
  | nil => exact h
  | cons o os ih =>
    refine ih ?_
    rw [(step_own ci d i o).1, (step_own ci d i o).2]
    exact alone_step h o

theorem alone_start (ci : CaseEq) (t : List Char) (tasks : Nat → List Char × Action) (i : Nat) :
    Alone ci t (start (some (bytesOf t)) tasks).file ((start (some (bytesOf t)) tasks).jobs i) := ⟨rfl, List.nil_prefix⟩

/-- A run reads a file that nobody changes meanwhile. -/
theorem reads_all (ci : CaseEq) {d : Desk} {i : Nat} {t : List Char} (hf : d.file = some (bytesOf t)) (hs : (d.jobs i).stage = .reading []) :
    ∃ os : List Outcome, (∀ o ∈ os, o ≠ .fails) ∧ (run ci d (os.map (i, ·))).file = d.file
      ∧ ((run ci d (os.map (i, ·))).jobs i).stage = afterRead ci (d.jobs i) (bytesOf t) := by
  by_cases h0 : bytesOf t = []
  · refine ⟨[.moves 0], by simp, ?_, ?_⟩
    · show (step ci d (i, .moves 0)).file = _
      rw [(step_own ci d i _).2]
      simp [stepJob, hs, hf, h0]
    · show ((step ci d (i, .moves 0)).jobs i).stage = _
      rw [(step_own ci d i _).1]
      simp [stepJob, hs, hf, h0]
  · have e1 : stepJob ci d.file (d.jobs i) (.moves (bytesOf t).length) = (some (bytesOf t), .reading (bytesOf t)) := by
      have : (bytesOf t).take ((bytesOf t).length + 1) = bytesOf t := List.take_of_length_le (by omega)
      simp [stepJob, hs, hf, this, h0]
    refine ⟨[.moves (bytesOf t).length, .moves 0], by simp, ?_, ?_⟩
    · show (step ci (step ci d (i, .moves (bytesOf t).length)) (i, .moves 0)).file = _
      rw [(step_own ci _ i _).2, (step_own ci d i _).1, (step_own ci d i _).2, e1]
      simp [stepJob, hf]
    · show ((step ci (step ci d (i, .moves (bytesOf t).length)) (i, .moves 0)).jobs i).stage = _
      rw [(step_own ci _ i _).1, (step_own ci d i _).1, (step_own ci d i _).2, e1]
      simp [stepJob, afterRead]

/-- A run that has something to write reads the file. -/
theorem reads (ci : CaseEq) {d : Desk} {i : Nat} {t new : List Char} (hf : d.file = some (bytesOf t)) (hs : (d.jobs i).stage = .reading [])
    (hu : updated ci (d.jobs i).user (d.jobs i).action t = some new) :
    ∃ os : List Outcome, (∀ o ∈ os, o ≠ .fails) ∧ (run ci d (os.map (i, ·))).file = d.file ∧ ((run ci d (os.map (i, ·))).jobs i).stage = .opening (bytesOf new) := by
  have hafter : afterRead ci (d.jobs i) (bytesOf t) = .opening (bytesOf new) := by
    unfold afterRead
    rw [fromUtf8_bytesOf]
    simp only [String.toList_ofList, hu]
    rfl
  rw [← hafter]
  exact reads_all ci hf hs

/-- A run opens the file for writing. -/
theorem opens (ci : CaseEq) {d : Desk} {i : Nat} {c : List UInt8} (hs : (d.jobs i).stage = .opening c) :
    (run ci d [(i, .moves 0)]).file = some [] ∧ ((run ci d [(i, .moves 0)]).jobs i).stage = .writing c 0 := by
  show (step ci d (i, .moves 0)).file = _ ∧ ((step ci d (i, .moves 0)).jobs i).stage = _
  rw [(step_own ci d i _).1, (step_own ci d i _).2]
  simp [stepJob, hs]

/-- A run writes everything. -/
theorem writes (ci : CaseEq) {d : Desk} {i : Nat} {c f : List UInt8} (hs : (d.jobs i).stage = .writing c 0) (hf : d.file = some f) :
    ∃ os : List Outcome, (∀ o ∈ os, o ≠ .fails) ∧ (run ci d (os.map (i, ·))).file = some (c ++ f.drop c.length)
      ∧ ((run ci d (os.map (i, ·))).jobs i).stage = .finished := by
  by_cases h0 : c = []
  · subst h0
    refine ⟨[.moves 0], by simp, ?_, ?_⟩
    · show (step ci d (i, .moves 0)).file = _
      rw [(step_own ci d i _).2]
      simp [stepJob, hs, hf]
    · show ((step ci d (i, .moves 0)).jobs i).stage = _
      rw [(step_own ci d i _).1]
      simp [stepJob, hs]
  · have hlen : ¬ c.length ≤ 0 := by
      have := List.length_pos_iff.mpr h0
      omega
    have e1 : stepJob ci d.file (d.jobs i) (.moves c.length) = (some (c ++ f.drop c.length), .writing c c.length) := by
      have : c.take (c.length + 1) = c := List.take_of_length_le (by omega)
      simp only [stepJob, hs, hf, if_neg hlen, List.drop_zero, this, Option.getD_some, Nat.zero_add]
      simp [writeAt]
    refine ⟨[.moves c.length, .moves 0], by simp, ?_, ?_⟩
    · show (step ci (step ci d (i, .moves c.length)) (i, .moves 0)).file = _
      rw [(step_own ci _ i _).2, (step_own ci d i _).1, (step_own ci d i _).2, e1]
      simp [stepJob]
    · show ((step ci (step ci d (i, .moves c.length)) (i, .moves 0)).jobs i).stage = _
      rw [(step_own ci _ i _).1, (step_own ci d i _).1, (step_own ci d i _).2, e1]
      simp [stepJob]

/-- A run on its own gets done. -/
theorem completes (ci : CaseEq) {d : Desk} {i : Nat} {t : List Char} (hf : d.file = some (bytesOf t)) (hs : (d.jobs i).stage = .reading []) :
    ∃ os : List Outcome, (∀ o ∈ os, o ≠ .fails)
      ∧ (run ci d (os.map (i, ·))).file = some (bytesOf (Passwd.run ci (d.jobs i).user (d.jobs i).action t))
      ∧ ((run ci d (os.map (i, ·))).jobs i).stage = .finished := by
  cases hu : updated ci (d.jobs i).user (d.jobs i).action t with
  | none =>
    obtain ⟨os, h1, h2, h3⟩ := reads_all ci hf hs
    refine ⟨os, h1, ?_, ?_⟩
    · rw [h2, hf]
      simp [Passwd.run, hu]
    · rw [h3]
      unfold afterRead
      rw [fromUtf8_bytesOf]
      simp only [String.toList_ofList, hu]
  | some new =>
    obtain ⟨os1, h1, _, h3⟩ := reads ci hf hs hu
    obtain ⟨h4, h5⟩ := opens ci h3
    obtain ⟨os2, h6, h7, h8⟩ := writes ci h5 h4
    refine ⟨os1 ++ .moves 0 :: os2, ?_, ?_⟩
    · intro o ho
      rcases List.mem_append.mp ho with ho | ho
      · exact h1 o ho
      · rcases List.mem_cons.mp ho with rfl | ho
        · simp
        · exact h6 o ho
    · have e : (os1 ++ .moves 0 :: os2).map (fun o => ((i : Nat), o)) = os1.map (i, ·) ++ ([(i, .moves 0)] ++ os2.map (i, ·)) := by simp
      rw [e, run_append, run_append]
      exact ⟨by rw [h7]; simp [Passwd.run, hu], h8⟩

/-- A run writes some bytes, and then a call fails. -/
theorem writes_some (ci : CaseEq) {d : Desk} {i : Nat} {c : List UInt8} (hs : (d.jobs i).stage = .writing c 0) (hf : d.file = some []) (k : Nat) :
    ∃ os : List Outcome, (run ci d (os.map (i, ·))).file = some (c.take k) ∧ ((run ci d (os.map (i, ·))).jobs i).stage = .panicked := by
  by_cases h0 : k = 0 ∨ c = []
  · refine ⟨[.fails], ?_, ?_⟩
    · show (step ci d (i, .fails)).file = _
      rw [(step_own ci d i _).2]
      rcases h0 with h0 | h0 <;> simp [stepJob, hs, hf, h0]
    · show ((step ci d (i, .fails)).jobs i).stage = _
      rw [(step_own ci d i _).1]
      simp [stepJob, hs]
  · have hk : k - 1 + 1 = k := by omega
    have hlen : ¬ c.length ≤ 0 := by
      have := List.length_pos_iff.mpr fun h => h0 (.inr h)
      omega
    have e1 : (stepJob ci d.file (d.jobs i) (.moves (k - 1))) = (some (c.take k), .writing c (c.take k).length) := by
      simp only [stepJob, hs, hf, if_neg hlen, List.drop_zero, Option.getD_some, Nat.zero_add, hk]
      simp [writeAt]
    refine ⟨[.moves (k - 1), .fails], ?_, ?_⟩
    · show (step ci (step ci d (i, .moves (k - 1))) (i, .fails)).file = _
      rw [(step_own ci _ i _).2, (step_own ci d i _).1, (step_own ci d i _).2, e1]
      simp [stepJob]
    · show ((step ci (step ci d (i, .moves (k - 1))) (i, .fails)).jobs i).stage = _
      rw [(step_own ci _ i _).1, (step_own ci d i _).1, (step_own ci d i _).2, e1]
      simp [stepJob]

end Desk

end Ratel.Passwd
