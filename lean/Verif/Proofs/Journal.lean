/-
The log of the process: its part that is that of the broker, and its part about the process.
-/
import Verif.Spec.Journal
import Verif.Proofs.LogAlike
import Verif.Proofs.LogText
import Verif.Proofs.Boot

namespace Ratel

open Spec

/-- The records that are not about the process. -/
def ofBroker (rs : List LogRecord) : List LogRecord := rs.filter fun r => !housekeeping r

theorem ofBroker_append (a b : List LogRecord) : ofBroker (a ++ b) = ofBroker a ++ ofBroker b := List.filter_append ..

theorem ofBroker_nil {rs : List LogRecord} (h : ∀ r ∈ rs, housekeeping r = true) : ofBroker rs = [] :=
  List.filter_eq_nil_iff.mpr fun r hr => by simp [h r hr]

theorem hk_application (l : Level) (m : List Char) : housekeeping ⟨l, .application, m⟩ = true := rfl

theorem proc_records (t : Texts) (env : Env) (W : Nat) (p : Proc) (st : PStep) :
    ∃ sched, (Proc.step env W p st).sys = Sys.run env p.sys sched
      ∧ ofBroker (Proc.records t env W p st) = ofBroker (Sys.transcript t env p.sys sched) := by
  cases st with
  | accept l c => exact ⟨[], by simp only [Proc.step]; split <;> rfl, rfl⟩
  | task st =>
    by_cases h : (p.free W && p.runnable st) = true
    · refine ⟨[st], by simp only [Proc.step, h]; rfl, ?_⟩
      simp only [Proc.records, h, Sys.transcript, List.append_nil, ↓reduceIte]
    · refine ⟨[], by simp only [Proc.step, h]; rfl, ?_⟩
      simp only [Proc.records, h, Sys.transcript]; rfl
  | stopListening l =>
    refine ⟨[], by simp only [Proc.step]; split <;> rfl, ?_⟩
    simp only [Proc.records]
    split
    · exact ofBroker_nil (by intro r hr; rw [List.mem_singleton.mp hr]; decide +kernel)
    · rfl
  | messagingEnds =>
    refine ⟨[], by simp only [Proc.step]; split <;> rfl, ?_⟩
    simp only [Proc.records]
    split
    · exact ofBroker_nil (by intro r hr; rw [List.mem_singleton.mp hr]; decide +kernel)
    · rfl
  | signal =>
    have hr : ofBroker (Proc.records t env W p .signal) = [] := by
      refine ofBroker_nil fun r hr => ?_
      simp only [Proc.records] at hr
      split at hr
      · rw [List.mem_singleton.mp hr]; rfl
      · cases hr
    have hc : ofBroker (Sys.transcript t env p.sys [.ctrlC]) = [] := by
      refine ofBroker_nil fun r hr => ?_
      simp only [Sys.transcript, Sys.records, List.append_nil] at hr
      split at hr
      · cases hr
      · rw [List.mem_singleton.mp hr]; rfl
    simp only [Proc.step, Proc.stepSignal]
    split
    · split
      · exact ⟨[.ctrlC], rfl, by rw [hr, hc]⟩
      · exact ⟨[], rfl, by rw [hr]; rfl⟩
    · exact ⟨[], rfl, by rw [hr]; rfl⟩
  | main =>
    refine ⟨[], ?_, ?_⟩
    · simp only [Proc.step, Proc.stepMain]
      repeat' split
      all_goals rfl
    · refine ofBroker_nil fun r hr => ?_
      simp only [Proc.records] at hr
      split at hr
      · rw [List.mem_singleton.mp hr]; rfl
      · cases hr

theorem hk_bind (l : Level) (a : List Char) : housekeeping ⟨l, .listener, "Binding MQTT TCP listener to ".toList ++ a⟩ = true := by
  have : "Binding MQTT TCP listener to ".toList.isPrefixOf ("Binding MQTT TCP listener to ".toList ++ a) = true :=
    List.isPrefixOf_iff_prefix.mpr (List.prefix_append _ _)
  unfold housekeeping
  simp only
  rw [this]
  rfl

theorem hk_listen (l : Level) (a : List Char) : housekeeping ⟨l, .listener, "Listening for MQTT TCP connections on ".toList ++ a⟩ = true := by
  have : "Listening for MQTT TCP connections on ".toList.isPrefixOf ("Listening for MQTT TCP connections on ".toList ++ a) = true :=
    List.isPrefixOf_iff_prefix.mpr (List.prefix_append _ _)
  unfold housekeeping
  simp only
  rw [this]
  simp

theorem boot_records (t : Texts) (env : Env) (W : Nat) (b : Boot) (st : BStep) :
    ∃ sched, (Boot.step env W b st).proc.sys = Sys.run env b.proc.sys sched
      ∧ ofBroker (Boot.records t env W b st) = ofBroker (Sys.transcript t env b.proc.sys sched) := by
  cases st with
  | bind ok =>
    refine ⟨[], ?_, ?_⟩
    · simp only [Boot.step, Boot.stepBind]
      repeat' split
      all_goals rfl
    · refine ofBroker_nil fun r hr => ?_
      simp only [Boot.records] at hr
      split at hr
      · rcases List.mem_cons.mp hr with rfl | hr
        · exact hk_bind _ _
        · split at hr
          · rw [List.mem_singleton.mp hr]; exact hk_listen _ _
          · cases hr
      · cases hr
  | ready =>
    refine ⟨[], ?_, ?_⟩
    · simp only [Boot.step, Boot.stepReady]
      repeat' split
      all_goals rfl
    · refine ofBroker_nil fun r hr => ?_
      simp only [Boot.records] at hr
      split at hr
      · rw [List.mem_singleton.mp hr]; rfl
      · cases hr
  | proc st =>
    by_cases hs : st = .signal
    · subst hs
      simp only [Boot.step, Boot.records]
      cases hr : b.ready with
      | true => exact proc_records t env W b.proc .signal
      | false =>
        refine ⟨[], ?_, rfl⟩
        simp only [Boot.kill, Bool.false_eq_true, ↓reduceIte]
        split <;> rfl
    · have h1 : Boot.step env W b (.proc st) = { b with proc := Proc.step env W b.proc st } := by cases st <;> first | rfl | exact absurd rfl hs
      have h2 : Boot.records t env W b (.proc st) = Proc.records t env W b.proc st := by cases st <;> first | rfl | exact absurd rfl hs
      rw [h1, h2]
      exact proc_records t env W b.proc st

theorem sys_transcript_append (t : Texts) (env : Env) (s : Sys) (a b : List Step) :
    Sys.transcript t env s (a ++ b) = Sys.transcript t env s a ++ Sys.transcript t env (Sys.run env s a) b := by
  induction a generalizing s with
  | nil => rfl
  | cons x a ih =>
    show Sys.records t env s x ++ Sys.transcript t env (Sys.step env s x) (a ++ b) = _
    rw [ih, ← List.append_assoc]
    rfl

/-- But for what is about the process, the log is that of the broker. -/
theorem boot_transcript (t : Texts) (env : Env) (W : Nat) (b : Boot) (bs : List BStep) :
    ∃ sched, (Boot.run env W b bs).proc.sys = Sys.run env b.proc.sys sched
      ∧ ofBroker (Boot.transcript t env W b bs) = ofBroker (Sys.transcript t env b.proc.sys sched) := by
  induction bs generalizing b with
  | nil => exact ⟨[], rfl, rfl⟩
  | cons st bs ih =>
    obtain ⟨s1, h1, h2⟩ := boot_records t env W b st
    obtain ⟨s2, h3, h4⟩ := ih (Boot.step env W b st)
    refine ⟨s1 ++ s2, ?_, ?_⟩
    · rw [Sys.run_append, ← h1]; exact h3
    · show ofBroker (Boot.records t env W b st ++ Boot.transcript t env W (Boot.step env W b st) bs) = _
      rw [ofBroker_append, sys_transcript_append, ofBroker_append, h2, h4, h1]

/-! ### What the main task says -/

theorem told_append (a b : List LogRecord) : told (a ++ b) = told a ++ told b := by
  simp only [told, List.filter_append, List.map_append]

theorem told_nil {rs : List LogRecord} (h : ∀ r ∈ rs, r.origin ≠ .application) : told rs = [] := by
  unfold told
  rw [List.filter_eq_nil_iff.mpr fun r hr => by simp [h r hr]]
  rfl

theorem sys_origin {t : Texts} {env : Env} {s : Sys} {st : Step} (h : st ≠ .ctrlC) : ∀ r ∈ Sys.records t env s st, r.origin ≠ .application := by
  intro r hr
  cases st with
  | ctrlC => exact absurd rfl h
  | read c =>
    simp only [Sys.records, Sys.readRecords] at hr
    repeat' split at hr
    all_goals simp only [List.mem_cons, List.not_mem_nil, or_false] at hr
    all_goals first
      | exact hr.elim
      | (rcases hr with rfl | rfl <;> simp)
      | (rw [hr]; simp)
  | write c =>
    simp only [Sys.records, Sys.writeRecords] at hr
    repeat' split at hr
    all_goals simp only [List.mem_append, List.mem_cons, List.not_mem_nil, or_false] at hr
    all_goals first
      | exact hr.elim
      | (rcases hr with (rfl | rfl) | rfl <;> simp)
      | (rcases hr with rfl | rfl <;> simp)
      | (rw [hr]; simp)
  | handler now =>
    simp only [Sys.records, Sys.handlerRecords] at hr
    split at hr
    · rename_i ev _ _ _
      have := Sys.handlerRecords_of (t := t) (auth := env.auth) (m := s.messaging) (ev := ev) r hr
      intro ho
      simp [ofHandler, ho] at this
    · cases hr
  | stop =>
    simp only [Sys.records] at hr
    repeat' split at hr
    all_goals simp only [List.mem_cons, List.not_mem_nil, or_false] at hr
    · rcases hr with rfl | rfl <;> simp

/-- What the main task has said once ctrl-c was pressed. -/
def parting : MainPhase → List (List Char)
  | .serving => []
  | .returned => [saysStopping, saysStopped]
  | .exited true => [saysStopping, saysStopped]
  | _ => [saysStopping]

/-- What the main task has said since it began to bind. -/
def sayings (b : Boot) : List (List Char) := if b.ready then saysReady :: parting b.proc.main else []

theorem parting_signal (t : Texts) (env : Env) (W : Nat) (p : Proc) :
    parting p.stepSignal.main = parting p.main ++ told (Proc.records t env W p .signal) := by
  unfold Proc.stepSignal Proc.records
  cases hm : p.main with
  | serving =>
    by_cases hc : (p.sys.handlerAlive || p.listeners.any (·)) = true
    · simp only [hc, ↓reduceIte]; rfl
    · simp only [hc]; rfl
  | exited ok => simp [hm, told]
  | _ => simp [hm, told]

theorem parting_main (t : Texts) (env : Env) (W : Nat) (p : Proc) :
    parting p.stepMain.main = parting p.main ++ told (Proc.records t env W p .main) := by
  unfold Proc.stepMain Proc.records
  cases hm : p.main with
  | serving => simp [hm, told]
  | exited ok => simp [hm, told]
  | joinHandler => cases hh : p.sys.handler <;> simp only [hm] <;> rfl
  | joinListeners =>
    by_cases hc : p.listeners.all (!·) = true
    · simp only [hc, ↓reduceIte]; rfl
    · simp only [hc, hm, Bool.false_eq_true, ↓reduceIte]; rfl
  | joinMessaging =>
    by_cases hc : p.messagingUp = true
    · simp only [hc, ↓reduceIte, hm]; rfl
    · simp only [hc]; rfl
  | returned =>
    by_cases hc : p.spinning = 0
    · simp only [hc, ↓reduceIte]; rfl
    · simp only [hc, ↓reduceIte, hm]; rfl
  | panicked =>
    by_cases hc : p.spinning = 0
    · simp only [hc, ↓reduceIte]; rfl
    · simp only [hc, ↓reduceIte, hm]; rfl

/-- Until it is ready the main task can only fail, or be killed. -/
def Early (b : Boot) : Prop := b.ready = false → b.proc.main = .serving ∨ b.proc.main = .panicked ∨ b.proc.main = .exited false

theorem proc_task_told (t : Texts) (env : Env) (W : Nat) (p : Proc) (st : Step) : told (Proc.records t env W p (.task st)) = [] := by
  refine told_nil fun r hr => ?_
  simp only [Proc.records] at hr
  split at hr
  · rename_i h
    refine sys_origin (fun hc => ?_) r hr
    subst hc
    simp [Proc.runnable] at h
  · cases hr

theorem sayings_step (t : Texts) (env : Env) (W : Nat) (b : Boot) (st : BStep) (h : Early b) :
    Early (Boot.step env W b st) ∧ sayings (Boot.step env W b st) = sayings b ++ told (Boot.records t env W b st) := by
  have same : ∀ b' : Boot, b'.ready = b.ready → b'.proc.main = b.proc.main → told (Boot.records t env W b st) = [] →
      Early b' ∧ sayings b' = sayings b ++ told (Boot.records t env W b st) := by
    intro b' h1 h2 h3
    refine ⟨fun h' => ?_, ?_⟩
    · rw [h2]; exact h (h1 ▸ h')
    · rw [h3, List.append_nil]; unfold sayings; rw [h1, h2]
  cases st with
  | bind ok =>
    have ht : told (Boot.records t env W b (.bind ok)) = [] := by
      refine told_nil fun r hr => ?_
      simp only [Boot.records] at hr
      split at hr
      · rcases List.mem_cons.mp hr with rfl | hr
        · simp
        · split at hr
          · rw [List.mem_singleton.mp hr]; simp
          · cases hr
      · cases hr
    show Early (Boot.stepBind b ok) ∧ sayings (Boot.stepBind b ok) = _
    unfold Boot.stepBind
    split
    · rename_i hm hr _
      split
      · exact same _ rfl rfl ht
      · refine ⟨fun _ => .inr (.inl rfl), ?_⟩
        rw [ht]
        unfold sayings
        simp only [hr]
        rfl
    · exact same _ rfl rfl ht
  | ready =>
    show Early (Boot.stepReady b) ∧ sayings (Boot.stepReady b) = _
    unfold Boot.stepReady
    split
    · rename_i hm hr
      refine ⟨fun h' => (by cases h'), ?_⟩
      simp only [Boot.records, hm, hr]
      cases hb : b.ready with
      | true =>
        unfold sayings
        simp only [hb, hm]
        rfl
      | false =>
        unfold sayings
        simp only [hb, hm]
        rfl
    · rename_i hne
      refine same _ rfl rfl ?_
      simp only [Boot.records]
      split
      · rename_i h1 _ h3
        exact (hne h1 h3).elim
      · rfl
  | proc st =>
    cases st with
    | signal =>
      cases hr : b.ready with
      | false =>
        have hrec : Boot.records t env W b (.proc .signal) = [] := by simp [Boot.records, hr]
        have hst : Boot.step env W b (.proc .signal) = Boot.kill b := by simp [Boot.step, hr]
        rw [hst, hrec]
        unfold Boot.kill
        split
        · refine ⟨h, ?_⟩; simp [told]
        · refine ⟨fun _ => .inr (.inr rfl), ?_⟩
          unfold sayings
          simp only [hr]
          rfl
      | true =>
        have hrec : Boot.records t env W b (.proc .signal) = Proc.records t env W b.proc .signal := by simp [Boot.records, hr]
        have hst : Boot.step env W b (.proc .signal) = { b with proc := b.proc.stepSignal } := by simp [Boot.step, hr]
        refine ⟨fun h' => ?_, ?_⟩
        · rw [hst] at h'; rw [hr] at h'; cases h'
        rw [hst, hrec]
        unfold sayings
        simp only [hr, ↓reduceIte]
        rw [parting_signal t env W, List.cons_append]
    | main =>
      have hrec : Boot.records t env W b (.proc .main) = Proc.records t env W b.proc .main := rfl
      have hst : Boot.step env W b (.proc .main) = { b with proc := b.proc.stepMain } := rfl
      refine ⟨fun h' => ?_, ?_⟩
      · have hb : b.ready = false := h'
        rw [hst]
        show b.proc.stepMain.main = _ ∨ _
        rcases h hb with hm | hm | hm <;> simp only [Proc.stepMain, hm]
        · exact .inl trivial
        · split
          · exact .inr (.inr rfl)
          · exact .inr (.inl hm)
        · exact .inr (.inr trivial)
      · rw [hst, hrec]
        cases hb : b.ready with
        | false =>
          unfold sayings
          simp only [hb]
          rcases h hb with hm | hm | hm <;> simp [Proc.records, hm, told]
        | true =>
          unfold sayings
          simp only [hb, ↓reduceIte]
          rw [parting_main t env W, List.cons_append]
    | accept l c =>
      refine same _ rfl ?_ rfl
      show (Proc.step env W b.proc (.accept l c)).main = _
      simp only [Proc.step]; split <;> rfl
    | task st =>
      refine same _ rfl ?_ (proc_task_told t env W b.proc st)
      show (Proc.step env W b.proc (.task st)).main = _
      simp only [Proc.step]; split <;> rfl
    | stopListening l =>
      refine same _ rfl ?_ (told_nil fun r hr => ?_)
      · show (Proc.step env W b.proc (.stopListening l)).main = _
        simp only [Proc.step]; split <;> rfl
      · simp only [Boot.records, Proc.records] at hr
        split at hr
        · rw [List.mem_singleton.mp hr]; simp
        · cases hr
    | messagingEnds =>
      refine same _ rfl ?_ (told_nil fun r hr => ?_)
      · show (Proc.step env W b.proc .messagingEnds).main = _
        simp only [Proc.step]; split <;> rfl
      · simp only [Boot.records, Proc.records] at hr
        split at hr
        · rw [List.mem_singleton.mp hr]; simp
        · cases hr

theorem sayings_run (t : Texts) (env : Env) (W : Nat) (b : Boot) (bs : List BStep) (h : Early b) :
    Early (Boot.run env W b bs) ∧ sayings (Boot.run env W b bs) = sayings b ++ told (Boot.transcript t env W b bs) := by
  induction bs generalizing b with
  | nil => exact ⟨h, by simp [Boot.run, Boot.transcript, told]⟩
  | cons st bs ih =>
    obtain ⟨h1, h2⟩ := sayings_step t env W b st h
    obtain ⟨h3, h4⟩ := ih _ h1
    refine ⟨h3, ?_⟩
    show sayings (Boot.run env W (Boot.step env W b st) bs) = _ ++ told (Boot.records t env W b st ++ Boot.transcript t env W (Boot.step env W b st) bs)
    rw [h4, h2, told_append, List.append_assoc]

/-! ### Addresses -/

theorem listening_append (a b : List LogRecord) : listening (a ++ b) = listening a ++ listening b := by
  simp only [listening, List.filterMap_append]

theorem listening_nil {rs : List LogRecord} (h : ∀ r ∈ rs, r.origin ≠ .listener ∨ r.level ≠ .info) : listening rs = [] := by
  refine List.filterMap_eq_nil_iff.mpr fun r hr => ?_
  rcases h r hr with h | h <;> simp [h]

theorem sys_not_info {t : Texts} {env : Env} {s : Sys} {st : Step} : ∀ r ∈ Sys.records t env s st, r.origin ≠ .listener ∨ r.level ≠ .info := by
  intro r hr
  cases st with
  | ctrlC =>
    simp only [Sys.records] at hr
    split at hr
    · cases hr
    · rw [List.mem_singleton.mp hr]; simp
  | read c =>
    simp only [Sys.records, Sys.readRecords] at hr
    repeat' split at hr
    all_goals simp only [List.mem_cons, List.not_mem_nil, or_false] at hr
    all_goals first
      | exact hr.elim
      | (rcases hr with rfl | rfl <;> simp)
      | (rw [hr]; simp)
  | write c =>
    simp only [Sys.records, Sys.writeRecords] at hr
    repeat' split at hr
    all_goals simp only [List.mem_append, List.mem_cons, List.not_mem_nil, or_false] at hr
    all_goals first
      | exact hr.elim
      | (rcases hr with (rfl | rfl) | rfl <;> simp)
      | (rcases hr with rfl | rfl <;> simp)
      | (rw [hr]; simp)
  | handler now =>
    simp only [Sys.records, Sys.handlerRecords] at hr
    split at hr
    · rename_i ev _ _ _
      have := Sys.handlerRecords_of (t := t) (auth := env.auth) (m := s.messaging) (ev := ev) r hr
      refine .inl fun ho => ?_
      simp [ofHandler, ho] at this
    · cases hr
  | stop =>
    simp only [Sys.records] at hr
    repeat' split at hr
    all_goals simp only [List.mem_cons, List.not_mem_nil, or_false] at hr
    · rcases hr with rfl | rfl <;> simp

theorem proc_listening (t : Texts) (env : Env) (W : Nat) (p : Proc) (st : PStep) : listening (Proc.records t env W p st) = [] := by
  refine listening_nil fun r hr => ?_
  cases st with
  | accept l c => cases hr
  | task st =>
    simp only [Proc.records] at hr
    split at hr
    · exact sys_not_info r hr
    · cases hr
  | stopListening l =>
    simp only [Proc.records] at hr
    split at hr
    · rw [List.mem_singleton.mp hr]; simp
    · cases hr
  | messagingEnds =>
    simp only [Proc.records] at hr
    split at hr
    · rw [List.mem_singleton.mp hr]; simp
    · cases hr
  | signal =>
    simp only [Proc.records] at hr
    split at hr
    · rw [List.mem_singleton.mp hr]; simp
    · cases hr
  | main =>
    simp only [Proc.records] at hr
    split at hr
    · rw [List.mem_singleton.mp hr]; simp
    · cases hr

theorem listeners_step (env : Env) (W : Nat) (p : Proc) (st : PStep) : (Proc.step env W p st).listeners.length = p.listeners.length := by
  cases st <;> simp only [Proc.step, Proc.stepSignal, Proc.stepMain]
  all_goals repeat' split
  all_goals simp

/-- What the log says is listened on, as long as addresses are being bound. -/
theorem addresses_step (t : Texts) (env : Env) (W : Nat) (b : Boot) (st : BStep) :
    ∃ new : List String, listening (Boot.records t env W b st) = new.map String.toList
      ∧ b.rest = new ++ (Boot.step env W b st).rest
      ∧ (Boot.step env W b st).proc.listeners.length = b.proc.listeners.length + new.length := by
  cases st with
  | bind ok =>
    by_cases hb : b.proc.main = .serving ∧ b.ready = false ∧ ∃ a rest, b.rest = a :: rest
    · obtain ⟨hm, hr, a, rest, hl⟩ := hb
      cases ok with
      | true =>
        have e1 : Boot.step env W b (.bind true) = { b with proc := { b.proc with listeners := b.proc.listeners ++ [true] }, rest := rest } := by
          simp only [Boot.step, Boot.stepBind, hm, hr, hl, ↓reduceIte]
        rw [e1]
        refine ⟨[a], ?_, hl, by simp⟩
        have := between_some (a := "Listening for MQTT TCP connections on ".toList) (b := []) (u := a.toList)
        rw [List.append_nil] at this
        simp only [Boot.records, hm, hr, hl]
        simp only [listening, ↓reduceIte, List.filterMap_cons, List.filterMap_nil, List.map_cons, List.map_nil]
        simp only [decide_true, Bool.and_true, reduceCtorEq, decide_false, Bool.false_eq_true, Bool.and_false, ↓reduceIte]
        rw [this]
      | false =>
        have e1 : Boot.step env W b (.bind false) = { b with proc := { b.proc with main := .panicked } } := by
          simp only [Boot.step, Boot.stepBind, hm, hr, hl, Bool.false_eq_true, ↓reduceIte]
        rw [e1]
        refine ⟨[], ?_, rfl, rfl⟩
        simp only [Boot.records, hm, hr, hl]
        rfl
    · have e1 : Boot.step env W b (.bind ok) = b := by
        simp only [Boot.step, Boot.stepBind]
        split
        · rename_i h1 h2 h3
          exact (hb ⟨h1, h2, _, _, h3⟩).elim
        · rfl
      have e2 : Boot.records t env W b (.bind ok) = [] := by
        simp only [Boot.records]
        split
        · rename_i h1 h2 h3
          exact (hb ⟨h1, h2, _, _, h3⟩).elim
        · rfl
      rw [e1, e2]
      exact ⟨[], rfl, rfl, rfl⟩
  | ready =>
    refine ⟨[], listening_nil fun r hr => ?_, ?_, ?_⟩
    · simp only [Boot.records] at hr
      split at hr
      · rw [List.mem_singleton.mp hr]; simp
      · cases hr
    · simp only [Boot.step, Boot.stepReady]; split <;> rfl
    · simp only [Boot.step, Boot.stepReady]; split <;> rfl
  | proc st =>
    refine ⟨[], ?_, ?_, ?_⟩
    · cases st with
      | signal =>
        simp only [Boot.records]
        split
        · exact proc_listening ..
        · rfl
      | accept l c => exact proc_listening t env W b.proc (.accept l c)
      | task st => exact proc_listening t env W b.proc (.task st)
      | stopListening l => exact proc_listening t env W b.proc (.stopListening l)
      | messagingEnds => exact proc_listening t env W b.proc .messagingEnds
      | main => exact proc_listening t env W b.proc .main
    · cases st with
      | signal =>
        simp only [Boot.step, Boot.kill]
        repeat' split
        all_goals rfl
      | _ => rfl
    · cases st with
      | signal =>
        simp only [Boot.step]
        split
        · exact listeners_step env W b.proc .signal
        · unfold Boot.kill; split <;> rfl
      | _ => exact listeners_step env W b.proc _

theorem addresses_run (t : Texts) (env : Env) (W : Nat) (b : Boot) (bs : List BStep) :
    ∃ new : List String, listening (Boot.transcript t env W b bs) = new.map String.toList
      ∧ b.rest = new ++ (Boot.run env W b bs).rest
      ∧ (Boot.run env W b bs).proc.listeners.length = b.proc.listeners.length + new.length := by
  induction bs generalizing b with
  | nil => exact ⟨[], rfl, rfl, rfl⟩
  | cons st bs ih =>
    obtain ⟨n1, h1, h2, h3⟩ := addresses_step t env W b st
    obtain ⟨n2, h4, h5, h6⟩ := ih (Boot.step env W b st)
    refine ⟨n1 ++ n2, ?_, ?_, ?_⟩
    · show listening (Boot.records t env W b st ++ _) = _
      rw [listening_append, h1, h4, List.map_append]
    · rw [h2, h5, List.append_assoc]; rfl
    · show (Boot.run env W (Boot.step env W b st) bs).proc.listeners.length = _
      rw [h6, h3, List.length_append]; omega

/-! ### Whoever logs makes progress -/

theorem conn_ne {s s' : Sys} {c : ConnId} (h : s'.conns c ≠ s.conns c) : s' ≠ s := fun he => h (by rw [he])

theorem silent_sys {t : Texts} {env : Env} {s : Sys} {st : Step} (h : Sys.step env s st = s) : Sys.records t env s st = [] := by
  cases st with
  | ctrlC =>
    have : s.ctrlC = true := by
      have := congrArg Sys.ctrlC h
      exact this.symm
    simp [Sys.records, this]
  | stop =>
    simp only [Sys.records]
    split
    · rename_i hh
      split
      · rename_i hc
        simp only [Sys.step, hh, hc, ↓reduceIte] at h
        have := congrArg Sys.handler h
        rw [hh] at this
        cases this
      · rfl
    · rfl
  | handler now =>
    simp only [Sys.records, Sys.handlerRecords]
    split
    · rename_i ev rest hh he
      have hl : (Sys.step env s (.handler now)).log = s.log ++ [(ev, now)] := by
        simp only [Sys.step, Sys.stepHandler, hh, he]
        split <;> rfl
      rw [h] at hl
      have := congrArg List.length hl
      simp at this
    · rfl
  | read c =>
    simp only [Sys.step, Sys.stepRead] at h
    simp only [Sys.records, Sys.readRecords]
    cases ho : (s.conns c).outbox with
    | some ev =>
      simp only [ho] at h ⊢
      by_cases ha : s.handlerAlive = true
      · simp [ha]
      · simp only [ha, Bool.false_eq_true, ↓reduceIte] at h
        have := congrArg (fun s : Sys => (s.conns c).outbox) h
        simp [Sys.setConn_self, ho] at this
    | none =>
      simp only [ho] at h ⊢
      have hk : Sys.readTask env c (s.conns c) = s.conns c := by
        have := congrArg (fun s : Sys => s.conns c) h
        simpa [Sys.setConn_self] using this
      unfold Sys.readTask at hk
      cases hp : (s.conns c).phase with
      | first =>
        simp only [hp] at hk ⊢
        split
        · rename_i p rd hr
          rw [hr] at hk
          cases p
          case connect q =>
            have := congrArg Conn.outbox hk
            simp [ho] at this
          all_goals
            have := congrArg Conn.phase hk
            simp [hp] at this
        · rfl
      | running id =>
        simp only [hp] at hk ⊢
        split
        · rename_i p rd hr
          rw [hr] at hk
          have := congrArg Conn.outbox hk
          simp [ho] at this
        · rename_i e rd hr
          rw [hr] at hk
          have := congrArg Conn.phase hk
          simp [hp] at this
        · rfl
      | ended => rfl
      | stuck => rfl
  | write c =>
    simp only [Sys.step, Sys.stepWrite] at h
    simp only [Sys.records, Sys.writeRecords]
    by_cases hw : ((s.conns c).rxOpen && !(s.conns c).wrBlocked) = true
    · simp only [hw, ↓reduceIte] at h ⊢
      cases hq : (s.conns c).queue with
      | nil =>
        simp only [hq] at h ⊢
        by_cases hs : s.hasSender c = true
        · simp [hs]
        · simp only [hs, Bool.false_eq_true, ↓reduceIte] at h
          have := congrArg (fun s : Sys => (s.conns c).rxOpen) h
          simp only [Sys.setConn_self] at this
          simp [← this] at hw
      | cons e rest =>
        have key : ∀ k : Conn, s.setConn c k = s → k.queue.length = rest.length + 1 := by
          intro k hk
          have := congrArg (fun s : Sys => (s.conns c).queue.length) hk
          simpa [Sys.setConn_self, hq] using this
        cases e with
        | controlPacket p =>
          simp only [hq] at h
          exfalso
          split at h <;> have := key _ h <;> simp at this
        | disconnect =>
          simp only [hq] at h
          have := key _ h
          simp at this
    · simp [hw]

theorem silent_proc {t : Texts} {env : Env} {W : Nat} {p : Proc} {st : PStep} (h : Proc.step env W p st = p) :
    Proc.records t env W p st = [] := by
  cases st with
  | accept l c => rfl
  | task st =>
    simp only [Proc.records]
    split
    · rename_i hc
      simp only [Proc.step, hc, ↓reduceIte] at h
      exact silent_sys (congrArg Proc.sys h)
    · rfl
  | stopListening l =>
    simp only [Proc.records]
    split
    · rename_i hc
      simp only [Bool.and_eq_true, beq_iff_eq] at hc
      simp only [Proc.step, hc.1.1, hc.1.2, Bool.and_self, ↓reduceIte] at h
      have := congrArg (fun p : Proc => p.listeners[l]?) h
      simp only at this
      rw [hc.2] at this
      have hl : l < p.listeners.length := by
        apply Classical.byContradiction
        intro hl
        rw [List.getElem?_eq_none (by omega)] at hc
        simp at hc
      rw [List.getElem?_set_self hl] at this
      cases this
    · rfl
  | messagingEnds =>
    simp only [Proc.records]
    split
    · rename_i hc
      simp only [Bool.and_eq_true] at hc
      simp only [Proc.step, hc.1.1, hc.1.2, Bool.and_self, ↓reduceIte] at h
      have := congrArg Proc.messagingUp h
      simp only at this
      rw [hc.2] at this
      cases this
    · rfl
  | signal =>
    simp only [Proc.records]
    split
    · rename_i hm
      simp only [Proc.step, Proc.stepSignal, hm] at h
      have := congrArg Proc.main h
      split at this <;> rw [hm] at this <;> cases this
    · rfl
  | main =>
    simp only [Proc.records]
    split
    · rename_i hm hh
      simp only [Proc.step, Proc.stepMain, hm, hh] at h
      have := congrArg Proc.main h
      rw [hm] at this
      cases this
    · rfl

end Ratel
