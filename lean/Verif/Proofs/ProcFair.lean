/-
The process comes to rest, and where.
-/
import Verif.Proofs.Process

namespace Ratel

open Decoder Encoder Spec Sys

namespace Proc

/-- How many listeners are still in their accept loop. -/
def up : List Bool → Nat
  | [] => 0
  | b :: l => (if b then 1 else 0) + up l

theorem up_set (l : List Bool) (i : Nat) : l.set i false = l ∨ up (l.set i false) < up l := by
  induction l generalizing i with
  | nil => exact .inl rfl
  | cons b l ih =>
    cases i with
    | zero =>
      cases b with
      | false => exact .inl rfl
      | true => exact .inr (by simp [up])
    | succ i =>
      rcases ih i with h | h
      · exact .inl (by simp [h])
      · exact .inr (by simp only [List.set_cons_succ, up]; omega)

def phaseRank : MainPhase → Nat
  | .serving => 6
  | .joinListeners => 5
  | .joinMessaging => 4
  | .joinHandler => 3
  | .returned => 1
  | .panicked => 1
  | .exited _ => 0

def rank (p : Proc) : Nat := up p.listeners + (if p.messagingUp then 1 else 0) + phaseRank p.main

def waiting (N : Nat) (p : Proc) : Nat := sumTo N fun c => if c ∈ p.accepted then 0 else 1

/-- Lexicographic comparison of what is left to do. -/
def PBelow (N : Nat) (p p' : Proc) : Prop :=
  waiting N p < waiting N p' ∨ waiting N p = waiting N p' ∧ (Sys.Below N p.sys p'.sys ∨ p.sys = p'.sys ∧ rank p < rank p')

theorem pbelow_wf (N : Nat) : WellFounded (PBelow N) := by
  have hw : WellFounded (Prod.Lex (· < ·) (Prod.Lex (Sys.Below N) (· < ·)) : Nat × Sys × Nat → _ → Prop) :=
    (Prod.lex ⟨_, Nat.lt_wfRel.wf⟩ (Prod.lex ⟨_, Sys.below_wf N⟩ ⟨_, Nat.lt_wfRel.wf⟩)).wf
  refine Subrelation.wf (fun {p p'} h => ?_) (InvImage.wf (fun p : Proc => (waiting N p, p.sys, rank p)) hw)
  show Prod.Lex _ _ (waiting N p, p.sys, rank p) (waiting N p', p'.sys, rank p')
  rcases h with h | ⟨h, h'⟩
  · exact .left _ _ h
  rw [h]; refine .right _ ?_
  rcases h' with h | ⟨h, h'⟩
  · exact .left _ _ h
  rw [h]; exact .right _ h'

theorem pbelow_step {env : Env} {peers : ConnId → Peer} {N L W : Nat} {sig : Prop} {p : Proc} (h : PInv env peers L sig p)
    (hacc : ∀ c ∈ p.accepted, (c : Nat) < N) {st : PStep} (hst : ∀ l c, st = .accept l c → (c : Nat) < N) :
    step env W p st = p ∨ PBelow N (step env W p st) p := by
  have hinv : Inv env peers p.sys := by
    obtain ⟨sched, h1, _⟩ := h.sys
    rw [h1]; exact inv_run env peers sched
  cases st with
  | accept l c =>
    simp only [step]
    split
    · rename_i hc
      simp only [Bool.and_eq_true, Bool.not_eq_true', List.contains_eq_mem, decide_eq_false_iff_not] at hc
      refine .inr (.inl ?_)
      refine sumTo_lt (hst l c rfl) ?_ fun d hd => ?_
      · simp [hc.2]
      · simp [hd]
    · exact .inl rfl
  | task st =>
    simp only [step]
    split
    · rename_i hc
      simp only [Bool.and_eq_true] at hc
      rcases below_step env hinv (N := N) (st := st) (by
          rintro c (rfl | rfl)
          · exact hacc c (by simpa [runnable] using hc.2)
          · exact hacc c (by simpa [runnable] using hc.2)) with h' | h'
      · refine .inl ?_
        rw [h']
      · exact .inr (.inr ⟨rfl, .inl h'⟩)
    · exact .inl rfl
  | stopListening l =>
    simp only [step]
    split
    · rcases up_set p.listeners l with h' | h'
      · exact .inl (by rw [h'])
      · exact .inr (.inr ⟨rfl, .inr ⟨rfl, by simp only [rank]; omega⟩⟩)
    · exact .inl rfl
  | messagingEnds =>
    simp only [step]
    split
    · cases hm : p.messagingUp with
      | false => exact .inl (by rw [← hm])
      | true => exact .inr (.inr ⟨rfl, .inr ⟨rfl, by simp [rank, hm]⟩⟩)
    · exact .inl rfl
  | signal =>
    show stepSignal p = p ∨ PBelow N (stepSignal p) p
    unfold stepSignal
    cases hm : p.main with
    | serving =>
      simp only
      split
      · rcases below_step env hinv (N := N) (st := .ctrlC) (by rintro c (h | h) <;> cases h) with h' | h'
        · refine .inr (.inr ⟨rfl, .inr ⟨h', ?_⟩⟩)
          simp [rank, hm, phaseRank]
        · exact .inr (.inr ⟨rfl, .inl h'⟩)
      · exact .inr (.inr ⟨rfl, .inr ⟨rfl, by simp [rank, hm, phaseRank]⟩⟩)
    | _ => exact .inl rfl
  | main =>
    show stepMain p = p ∨ PBelow N (stepMain p) p
    have down : ∀ ph, phaseRank ph < phaseRank p.main → { p with main := ph } = p ∨ PBelow N { p with main := ph } p := fun ph hph =>
      .inr (.inr ⟨rfl, .inr ⟨rfl, by simp only [rank]; omega⟩⟩)
    unfold stepMain
    cases hm : p.main <;> rw [hm] at down <;> simp only
    case serving => exact .inl trivial
    case exited => exact .inl trivial
    all_goals split
    all_goals first | exact .inl rfl | exact down _ (by simp [phaseRank])

theorem firstPSteps_succ (τ : Nat → PStep) (n : Nat) : firstPSteps τ (n + 1) = firstPSteps τ n ++ [τ n] := by
  simp [firstPSteps, List.range_succ]

theorem prun_succ (env : Env) (W : Nat) (p : Proc) (τ : Nat → PStep) (n : Nat) :
    run env W p (firstPSteps τ (n + 1)) = step env W (run env W p (firstPSteps τ n)) (τ n) := by
  rw [firstPSteps_succ, run_append]; rfl

theorem accepted_step {env : Env} {W : Nat} {p : Proc} {st : PStep} {c : ConnId} (h : c ∈ (step env W p st).accepted) :
    c ∈ p.accepted ∨ ∃ l, st = .accept l c := by
  cases st with
  | accept l d =>
    simp only [step] at h
    split at h
    · rcases List.mem_cons.mp h with rfl | h
      · exact .inr ⟨l, rfl⟩
      · exact .inl h
    · exact .inl h
  | task st => simp only [step] at h; split at h <;> exact .inl h
  | stopListening l => simp only [step] at h; split at h <;> exact .inl h
  | messagingEnds => simp only [step] at h; split at h <;> exact .inl h
  | signal => simp only [step, stepSignal] at h; repeat' split at h
              all_goals exact .inl h
  | main => simp only [step, stepMain] at h; repeat' split at h
            all_goals exact .inl h

theorem accepted_few {env : Env} {W L N : Nat} {peers : ConnId → Peer} {τ : Nat → PStep} (hf : PFew N τ) (n : Nat) :
    ∀ c ∈ (run env W (start L peers) (firstPSteps τ n)).accepted, (c : Nat) < N := by
  induction n with
  | zero => intro c hc; cases hc
  | succ n ih =>
    intro c hc
    rw [prun_succ] at hc
    rcases accepted_step hc with h | ⟨l, h⟩
    · exact ih c h
    · exact hf n l c h

theorem pcomes_to_rest (env : Env) (W L : Nat) (peers : ConnId → Peer) {N : Nat} {τ : Nat → PStep} (hf : PFew N τ) :
    ∃ n, ∀ m, n ≤ m → run env W (start L peers) (firstPSteps τ m) = run env W (start L peers) (firstPSteps τ n) := by
  have key : ∀ p, ∀ n, run env W (start L peers) (firstPSteps τ n) = p →
      ∃ n, ∀ m, n ≤ m → run env W (start L peers) (firstPSteps τ m) = run env W (start L peers) (firstPSteps τ n) := by
    intro p
    refine (pbelow_wf N).induction (C := fun p => ∀ n, run env W (start L peers) (firstPSteps τ n) = p →
      ∃ n, ∀ m, n ≤ m → run env W (start L peers) (firstPSteps τ m) = run env W (start L peers) (firstPSteps τ n)) p ?_
    clear p
    intro p ih n hn
    by_cases hex : ∃ m, PBelow N (run env W (start L peers) (firstPSteps τ m)) p
    · obtain ⟨m, hm⟩ := hex
      exact ih _ hm m rfl
    · refine ⟨n, fun m hm => ?_⟩
      obtain ⟨k, rfl⟩ := Nat.exists_eq_add_of_le hm
      clear hm
      induction k with
      | zero => rfl
      | succ k ihk =>
        have hs := prun_succ env W (start L peers) τ (n + k)
        rcases pbelow_step (W := W) (pinv_run env W L peers (firstPSteps τ (n + k))) (accepted_few hf (n + k)) (hf (n + k)) with h | h
        · rw [h] at hs
          exact hs.trans ihk
        · rw [← hs, ihk, hn] at h
          exact (hex ⟨_, h⟩).elim
  exact key _ 0 rfl

/-- Connections that are not accepted stay as they were. -/
theorem unaccepted {env : Env} {peers : ConnId → Peer} {L : Nat} {sig : Prop} {p : Proc} (h : PInv env peers L sig p) {d : ConnId}
    (hd : d ∉ p.accepted) : (p.sys.conns d).phase = .first ∧ (p.sys.conns d).rd = (peers d).conn.rd ∧ (p.sys.conns d).outbox = none
      ∧ (p.sys.conns d).wr = (peers d).conn.wr := by
  obtain ⟨sched, h1, h2, _⟩ := h.sys
  rw [h1]
  clear h1
  have key : ∀ sched : List Step, (∀ st ∈ sched, ∀ c, st = .read c ∨ st = .write c → c ≠ d) → ∀ s : Sys,
      ((Sys.run env s sched).conns d).phase = (s.conns d).phase ∧ ((Sys.run env s sched).conns d).rd = (s.conns d).rd
      ∧ ((Sys.run env s sched).conns d).outbox = (s.conns d).outbox ∧ ((Sys.run env s sched).conns d).wr = (s.conns d).wr := by
    intro sched
    induction sched with
    | nil => intro _ s; exact ⟨rfl, rfl, rfl, rfl⟩
    | cons st sched ih =>
      intro hs s
      obtain ⟨e1, e2, e3, e4⟩ := ih (fun st' hst' => hs st' (List.mem_cons_of_mem _ hst')) (Sys.step env s st)
      rw [Sys.run_cons, e1, e2, e3, e4]
      clear e1 e2 e3 e4
      have hst := hs st List.mem_cons_self
      have keep : ∀ s' : Sys, s'.conns d = s.conns d → (s'.conns d).phase = (s.conns d).phase ∧ (s'.conns d).rd = (s.conns d).rd
          ∧ (s'.conns d).outbox = (s.conns d).outbox ∧ (s'.conns d).wr = (s.conns d).wr := fun s' e => by rw [e]; exact ⟨rfl, rfl, rfl, rfl⟩
      cases st with
      | ctrlC => exact ⟨rfl, rfl, rfl, rfl⟩
      | stop => refine keep _ ?_
                simp only [Sys.step]; repeat' split
                all_goals rfl
      | read c =>
        have hc : d ≠ c := fun e => hst c (.inl rfl) e.symm
        refine keep _ ?_
        show (stepRead env s c).conns d = _
        unfold stepRead; simp only
        repeat' split
        all_goals first | rfl | (rw [setConn_other _ _ hc])
      | write c =>
        have hc : d ≠ c := fun e => hst c (.inr rfl) e.symm
        refine keep _ ?_
        show (stepWrite env s c).conns d = _
        unfold stepWrite; simp only
        repeat' split
        all_goals first | rfl | (rw [setConn_other _ _ hc])
      | handler now =>
        show ((stepHandler env now s).conns d).phase = _ ∧ ((stepHandler env now s).conns d).rd = _
          ∧ ((stepHandler env now s).conns d).outbox = _ ∧ ((stepHandler env now s).conns d).wr = _
        unfold stepHandler
        cases s.handler with
        | busy todo =>
          cases todo with
          | nil => exact ⟨rfl, rfl, rfl, rfl⟩
          | cons x todo =>
            simp only
            repeat' split
            all_goals first
              | exact ⟨rfl, rfl, rfl, rfl⟩
              | (by_cases hx : d = x.1
                 · subst hx; simp [setConn]
                 · rw [setConn_other _ _ hx]; exact ⟨rfl, rfl, rfl, rfl⟩)
        | idle =>
          simp only
          repeat' split
          all_goals exact ⟨rfl, rfl, rfl, rfl⟩
        | crashed => exact ⟨rfl, rfl, rfl, rfl⟩
        | stopped => exact ⟨rfl, rfl, rfl, rfl⟩
  obtain ⟨e1, e2, e3, e4⟩ := key sched (fun st hst c hc e => hd (e ▸ h2 st hst c hc)) (init peers)
  exact ⟨e1, e2, e3, e4⟩

/-! ### Spinning -/

theorem accepted_grows (env : Env) (W : Nat) (p : Proc) (st : PStep) {c : ConnId} (h : c ∈ p.accepted) : c ∈ (step env W p st).accepted := by
  cases st with
  | accept l d => simp only [step]; split
                  · exact List.mem_cons_of_mem _ h
                  · exact h
  | task st => simp only [step]; split <;> exact h
  | stopListening l => simp only [step]; split <;> exact h
  | messagingEnds => simp only [step]; split <;> exact h
  | signal => simp only [step, stepSignal]; repeat' split
              all_goals exact h
  | main => simp only [step, stepMain]; repeat' split
            all_goals exact h

theorem stuck_step (env : Env) (W : Nat) (p : Proc) (st : PStep) {c : ConnId} (h : (p.sys.conns c).phase = .stuck) :
    ((step env W p st).sys.conns c).phase = .stuck := by
  cases st with
  | accept l d => simp only [step]; split <;> exact h
  | task st => simp only [step]; split
               · exact stuck_stays env h st
               · exact h
  | stopListening l => simp only [step]; split <;> exact h
  | messagingEnds => simp only [step]; split <;> exact h
  | signal => simp only [step, stepSignal]; repeat' split
              all_goals exact h
  | main => simp only [step, stepMain]; repeat' split
            all_goals exact h

theorem spins_step (env : Env) (W : Nat) (p : Proc) (st : PStep) (hn : p.accepted.Nodup) : p.spinning ≤ (step env W p st).spinning := by
  unfold spinning
  refine List.Nodup.length_le_of_subset (List.Pairwise.filter _ hn) fun c hc => ?_
  rw [List.mem_filter] at hc ⊢
  exact ⟨accepted_grows env W p st hc.1, by simpa using stuck_step env W p st (by simpa using hc.2)⟩

/-- While a task spins, the process does not end. -/
theorem spinning_stays (env : Env) (W : Nat) {peers : ConnId → Peer} {L : Nat} {sig : Prop} {p : Proc} (h : PInv env peers L sig p)
    (hs : 0 < p.spinning) (hg : p.gone = false) (ps : List PStep) :
    0 < (run env W p ps).spinning ∧ (run env W p ps).gone = false := by
  induction ps generalizing p sig with
  | nil => exact ⟨hs, hg⟩
  | cons st ps ih =>
    rw [run_cons]
    refine ih (pinv_step (W := W) h st) (Nat.lt_of_lt_of_le hs (spins_step env W p st h.nodup)) ?_
    have keep : ∀ q : Proc, q.main = p.main → q.gone = false := fun q hq => by simpa [gone, hq] using hg
    cases st with
    | accept l d => simp only [step]; split <;> exact keep _ rfl
    | task st => simp only [step]; split <;> exact keep _ rfl
    | stopListening l => simp only [step]; split <;> exact keep _ rfl
    | messagingEnds => simp only [step]; split <;> exact keep _ rfl
    | signal =>
      simp only [step, stepSignal]
      repeat' split
      all_goals first | exact hg | rfl
    | main =>
      simp only [step, stepMain]
      have : ¬ p.spinning = 0 := by omega
      simp only [this, ↓reduceIte]
      repeat' split
      all_goals first | exact hg | rfl

/-- When every worker is occupied, nothing runs any more. -/
structure Frozen (p q : Proc) : Prop where
  conns : q.sys.conns = p.sys.conns
  events : q.sys.events = p.sys.events
  handler : q.sys.handler = p.sys.handler
  log : q.sys.log = p.sys.log
  accepted : q.accepted = p.accepted
  listeners : q.listeners = p.listeners

theorem Frozen.spinning {p q : Proc} (h : Frozen p q) : q.spinning = p.spinning := by
  unfold Proc.spinning; rw [h.accepted, h.conns]

theorem frozen_run (env : Env) (W : Nat) (hW : 0 < W) {p : Proc} (hs : W ≤ p.spinning) (hg : p.gone = false) (ps : List PStep) :
    Frozen p (run env W p ps) ∧ (run env W p ps).gone = false := by
  have key : ∀ ps (q : Proc), Frozen p q → q.gone = false → Frozen p (run env W q ps) ∧ (run env W q ps).gone = false := by
    intro ps
    induction ps with
    | nil => intro q h1 h2; exact ⟨h1, h2⟩
    | cons st ps ih =>
      intro q h1 h2
      rw [run_cons]
      have hsp : W ≤ q.spinning := by rw [h1.spinning]; exact hs
      have hf : q.free W = false := by simp [free]; intro h; omega
      cases st with
      | accept l d => simp only [step, hf, Bool.false_and, Bool.false_eq_true, ↓reduceIte]; exact ih q h1 h2
      | task st => simp only [step, hf, Bool.false_and, Bool.false_eq_true, ↓reduceIte]; exact ih q h1 h2
      | stopListening l => simp only [step, hf, Bool.false_and, Bool.false_eq_true, ↓reduceIte]; exact ih q h1 h2
      | messagingEnds => simp only [step, hf, Bool.false_and, Bool.false_eq_true, ↓reduceIte]; exact ih q h1 h2
      | signal =>
        refine ih _ ?_ ?_
        · simp only [step, stepSignal]
          repeat' split
          all_goals exact ⟨h1.conns, h1.events, h1.handler, h1.log, h1.accepted, h1.listeners⟩
        · simp only [step, stepSignal]
          repeat' split
          all_goals first | exact h2 | rfl
      | main =>
        have hne : ¬ q.spinning = 0 := by omega
        refine ih _ ?_ ?_
        · simp only [step, stepMain]
          repeat' split
          all_goals exact ⟨h1.conns, h1.events, h1.handler, h1.log, h1.accepted, h1.listeners⟩
        · simp only [step, stepMain, hne, ↓reduceIte]
          repeat' split
          all_goals first | exact h2 | rfl
  exact key ps p ⟨rfl, rfl, rfl, rfl, rfl, rfl⟩ hg

/-- A connection that brings a large PUBLISH first spins at once. -/
theorem hog_spins (env : Env) {peer : Peer} (h : Hog peer) {s : Sys} {c : ConnId} (h1 : (s.conns c).phase = .first)
    (h2 : (s.conns c).rd = peer.conn.rd) (h3 : (s.conns c).outbox = none) : ((Sys.step env s (.read c)).conns c).phase = .stuck := by
  obtain ⟨q, rest, hl, hs, hbig, hb⟩ := h
  letI := RStream.source env.alloc
  have key := C15_large_messages_fails env.alloc env.profile [] (by simp) q hl hs hbig peer.segs peer.fin rest (by simpa using hb)
  have hang : ((readPacket env.profile : M RStream ControlPacket) peer.conn.rd).1 = .hang := by
    simp only [received, List.length_nil, Nat.zero_add, readMany] at key
    rcases hm : (readPacket env.profile : M RStream ControlPacket) (RStream.new 4096 peer.segs peer.fin) with ⟨r, s'⟩
    show ((readPacket env.profile : M RStream ControlPacket) (RStream.new 4096 peer.segs peer.fin)).1 = .hang
    rw [hm]
    cases r with
    | hang => rfl
    | ok p => rw [M.bind_ok hm, M.bind_ok (M.pure_apply _ _)] at key; cases key
    | err e => rw [M.bind_err hm] at key; cases key
    | panic => exact absurd key (by simp [bind, M.bind, hm])
    | pending => exact absurd key (by simp [bind, M.bind, hm])
  show ((stepRead env s c).conns c).phase = _
  unfold stepRead
  simp only [h3, setConn_self]
  unfold readTask
  simp only [h1, h2]
  rcases hm : (readPacket env.profile : M RStream ControlPacket) peer.conn.rd with ⟨r, s'⟩
  rw [hm] at hang
  subst hang
  rfl

/-- Where a fair schedule ends up, if a worker thread remains free. -/
theorem pfair_rest (env : Env) (W L : Nat) (peers : ConnId → Peer) {N : Nat} {τ : Nat → PStep} (hf : PFair N L τ) :
    ∃ n, (∀ m, n ≤ m → run env W (start L peers) (firstPSteps τ m) = run env W (start L peers) (firstPSteps τ n))
      ∧ ∀ p, p = run env W (start L peers) (firstPSteps τ n) → p.spinning < W →
          (p.gone = true ∨ p.sys.handlerAlive = false ∨ (∃ d e todo, d ∈ p.accepted ∧ Stuck p.sys d e todo)
            ∨ Done env (· ∈ p.accepted) p.sys)
          ∧ ((∃ i, τ i = .signal) → p.gone = true ∨ (∃ d e todo, d ∈ p.accepted ∧ Stuck p.sys d e todo)
            ∨ (0 < p.spinning ∧ (p.main = .returned ∨ p.main = .panicked)))
          ∧ (Knocking N L τ → p.gone = true ∨ (∃ i, τ i = .signal) ∨ ∀ c, c < N → c ∈ p.accepted) := by
  obtain ⟨n, hn⟩ := pcomes_to_rest env W L peers hf.few
  refine ⟨n, hn, ?_⟩
  intro p hp hW
  have key : ∀ m st, n ≤ m → τ m = st → step env W p st = p := by
    intro m st hm hst
    have := prun_succ env W (start L peers) τ m
    rw [hn m hm, hn (m + 1) (by omega), hst] at this
    rw [hp]
    exact this.symm
  have hinvp : PInv env peers L (∃ i, i < n ∧ τ i = .signal) p := by
    have := pinv_run env W L peers (firstPSteps τ n)
    rw [← hp] at this
    have he : (PStep.signal ∈ firstPSteps τ n) = (∃ i, i < n ∧ τ i = .signal) := by
      simp [firstPSteps, List.mem_map, List.mem_range]
    rwa [he] at this
  have hinv : Inv env peers p.sys := by
    obtain ⟨sched, h1, _⟩ := hinvp.sys
    rw [h1]; exact inv_run env peers sched
  have hacc : ∀ c ∈ p.accepted, (c : Nat) < N := by rw [hp]; exact accepted_few hf.few n
  cases hg : p.gone with
  | true => exact ⟨.inl rfl, fun _ => .inl rfl, fun _ => .inl rfl⟩
  | false =>
    have hfree : p.free W = true := by simp [free, hg, hW]
    have htask : ∀ m st, n ≤ m → τ m = .task st → p.runnable st = true → Sys.step env p.sys st = p.sys := by
      intro m st hm hst hr
      have := key m _ hm hst
      simp only [step, hfree, hr, Bool.and_self, ↓reduceIte] at this
      exact congrArg Proc.sys this
    have hrest : p.sys.handler = .crashed ∨ p.sys.handler = .stopped ∨ (∃ d e todo, d ∈ p.accepted ∧ Stuck p.sys d e todo)
        ∨ Done env (· ∈ p.accepted) p.sys := by
      obtain ⟨mh, now, hmh, hnow⟩ := hf.handler n
      refine at_rest env hinv (fun d hd => (unaccepted hinvp hd).1) (fun c hc => ?_) (fun c hc => ?_) (htask mh _ hmh hnow rfl)
      · obtain ⟨m, hm, hst⟩ := hf.read c (hacc c hc) n
        exact htask m _ hm hst (by simpa [runnable] using hc)
      · obtain ⟨m, hm, hst⟩ := hf.write c (hacc c hc) n
        exact htask m _ hm hst (by simpa [runnable] using hc)
    refine ⟨?_, ?_, ?_⟩
    · rcases hrest with h | h | h | h
      · exact .inr (.inl (by simp [handlerAlive, h]))
      · exact .inr (.inl (by simp [handlerAlive, h]))
      · exact .inr (.inr (.inl h))
      · exact .inr (.inr (.inr h))
    · rintro ⟨i, hi⟩
      have hmain : stepMain p = p := by
        obtain ⟨m, hm, hst⟩ := hf.main n
        exact key m _ hm hst
      have hstage := hinvp.stage
      unfold Stage at hstage
      have hneq : ∀ ph, { p with main := ph } = p → ph = p.main := fun ph h => congrArg Proc.main h
      have stuckOr : p.sys.ctrlC = true → p.sys.handlerAlive = false ∨ ∃ d e todo, d ∈ p.accepted ∧ Stuck p.sys d e todo := by
        intro hc
        rcases hrest with h | h | h | h
        · exact .inl (by simp [handlerAlive, h])
        · exact .inl (by simp [handlerAlive, h])
        · exact .inr h
        · exfalso
          obtain ⟨m, hm, hst⟩ := hf.stop n
          have := congrArg Sys.handler (htask m _ hm hst rfl)
          simp [Sys.step, h.handler, hc] at this
      cases hm : p.main with
      | serving =>
        exfalso
        rw [hm] at hstage
        refine hstage.1 ⟨i, Nat.lt_of_not_le fun hin => ?_, hi⟩
        have := key i _ hin hi
        simp only [step, stepSignal, hm] at this
        split at this
        · have := congrArg Proc.main this; rw [hm] at this; cases this
        · have := congrArg Proc.main this; rw [hm] at this; cases this
      | joinListeners =>
        exfalso
        rw [hm] at hstage
        have hdown : p.listeners.all (!·) = true := by
          rw [List.all_eq_true]
          intro b hb
          obtain ⟨l, hl, he⟩ := List.mem_iff_getElem.mp hb
          obtain ⟨m, hm', hst⟩ := hf.listeners l (by rw [← hinvp.listeners]; exact hl) n
          have := key m _ hm' hst
          simp only [step, hfree, hstage.2, Bool.and_self, ↓reduceIte] at this
          have := congrArg Proc.listeners this
          simp only at this
          have h2 : (p.listeners.set l false)[l]? = some false := by simp [hl]
          rw [this, List.getElem?_eq_getElem hl, he] at h2
          cases h2
          rfl
        simp only [stepMain, hm, hdown, ↓reduceIte] at hmain
        have := hneq _ hmain
        rw [hm] at this
        cases this
      | joinMessaging =>
        rw [hm] at hstage
        rcases stuckOr hstage.2.1 with h | h
        · exfalso
          obtain ⟨m, hm', hst⟩ := hf.messaging n
          have := key m _ hm' hst
          simp only [step, hfree, h, Bool.not_false, Bool.and_self, ↓reduceIte] at this
          have hup : false = p.messagingUp := congrArg Proc.messagingUp this
          simp only [stepMain, hm, ← hup, Bool.false_eq_true, ↓reduceIte] at hmain
          have := congrArg Proc.main hmain
          rw [hm] at this
          cases this
        · exact .inr (.inl h)
      | joinHandler =>
        exfalso
        rw [hm] at hstage
        have hd := hinvp.down hstage.2.2.2
        unfold handlerAlive at hd
        cases hh : p.sys.handler with
        | idle => rw [hh] at hd; cases hd
        | busy t => rw [hh] at hd; cases hd
        | stopped =>
          simp only [stepMain, hm, hh] at hmain
          have := hneq _ hmain; rw [hm] at this; cases this
        | crashed =>
          simp only [stepMain, hm, hh] at hmain
          have := hneq _ hmain; rw [hm] at this; cases this
      | returned =>
        refine .inr (.inr ⟨Nat.pos_of_ne_zero fun h0 => ?_, .inl rfl⟩)
        simp only [stepMain, hm, h0, ↓reduceIte] at hmain
        have := hneq _ hmain; rw [hm] at this; cases this
      | panicked =>
        refine .inr (.inr ⟨Nat.pos_of_ne_zero fun h0 => ?_, .inr rfl⟩)
        simp only [stepMain, hm, h0, ↓reduceIte] at hmain
        have := hneq _ hmain; rw [hm] at this; cases this
      | exited ok => simp [gone, hm] at hg
    · intro hk
      by_cases hsig : ∃ i, τ i = .signal
      · exact .inr (.inl hsig)
      · refine .inr (.inr fun c hc => ?_)
        obtain ⟨m, l, hm, hl, hst⟩ := hk c hc n
        have hup : p.listeners[l]? = some true := by
          have hall : ∀ k, (run env W (start L peers) (firstPSteps τ k)).listeners = List.replicate L true := by
            intro k
            induction k with
            | zero => rfl
            | succ k ih =>
              rw [prun_succ]
              have hc0 : (run env W (start L peers) (firstPSteps τ k)).sys.ctrlC = false := by
                have hi := pinv_run env W L peers (firstPSteps τ k)
                have hno : ¬ (PStep.signal ∈ firstPSteps τ k) := by
                  intro hm
                  obtain ⟨i, _, he⟩ := List.mem_map.mp hm
                  exact hsig ⟨i, he⟩
                have hs := hi.stage
                unfold Stage at hs
                split at hs
                · exact hs.2
                all_goals exact absurd hs.1 hno
              generalize run env W (start L peers) (firstPSteps τ k) = q at *
              cases hτ : τ k with
              | accept l d => simp only [step]; split <;> exact ih
              | task st => simp only [step]; split <;> exact ih
              | stopListening l => simp only [step, hc0, Bool.and_false, Bool.false_eq_true, ↓reduceIte]; exact ih
              | messagingEnds => simp only [step]; split <;> exact ih
              | signal => exact absurd ⟨k, hτ⟩ hsig
              | main => simp only [step, stepMain]; repeat' split
                        all_goals exact ih
          rw [hp, hall n]
          simp [hl]
        refine Classical.byContradiction fun hnot => ?_
        have := key m _ hm hst
        simp only [step, hfree, hup, BEq.rfl, Bool.and_true, Bool.true_and] at this
        have hcon : p.accepted.contains c = false := by simp [hnot]
        simp only [hcon, Bool.not_false, ↓reduceIte] at this
        have := congrArg (fun q : Proc => q.accepted.length) this
        simp at this

end Proc

end Ratel
