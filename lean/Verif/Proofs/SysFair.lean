/-
The running broker under endless schedules: it comes to rest.
-/
import Verif.Spec.Fair
import Verif.Proofs.SysLive
import Verif.Proofs.SysProtocol

namespace Ratel

open Decoder Encoder Spec

namespace Sys

/-! ### A measure that every step decreases, unless it changes nothing -/

def sumTo (N : Nat) (f : Nat → Nat) : Nat := ((List.range N).map f).sum

theorem sumTo_succ (N : Nat) (f : Nat → Nat) : sumTo (N + 1) f = sumTo N f + f N := by
  simp [sumTo, List.range_succ]

theorem sumTo_congr {N : Nat} {f g : Nat → Nat} (h : ∀ c, c < N → f c = g c) : sumTo N f = sumTo N g := by
  induction N with
  | zero => rfl
  | succ N ih => rw [sumTo_succ, sumTo_succ, ih fun c hc => h c (by omega), h N (by omega)]

theorem sumTo_lt {N : Nat} {f g : Nat → Nat} {c : Nat} (hc : c < N) (h : f c < g c) (ho : ∀ d, d ≠ c → f d = g d) : sumTo N f < sumTo N g := by
  induction N with
  | zero => omega
  | succ N ih =>
    rw [sumTo_succ, sumTo_succ]
    by_cases hcn : c = N
    · subst hcn
      rw [sumTo_congr (g := g) fun d hd => ho d (by omega)]
      omega
    · have := ih (by omega)
      rw [ho N (fun h => hcn h.symm)]
      omega

def phaseWeight : ReadPhase → Nat
  | .first => 2
  | .running _ => 1
  | _ => 0

def life (s : Sys) : Nat := (if s.handlerAlive then 1 else 0) + if s.ctrlC then 0 else 1
def phases (N : Nat) (s : Sys) : Nat := sumTo N fun c => phaseWeight (s.conns c).phase
def input (N : Nat) (s : Sys) : Nat := sumTo N fun c => (unread (s.conns c).rd).length
def outboxes (N : Nat) (s : Sys) : Nat := sumTo N fun c => if (s.conns c).outbox.isSome then 2 else 0
def mail (N : Nat) (s : Sys) : Nat := outboxes N s + s.events.length
def busyness (s : Sys) : Nat :=
  match s.handler with
  | .busy todo => todo.length + 1
  | _ => 0
def output (N : Nat) (s : Sys) : Nat := sumTo N fun c => (s.conns c).queue.length + if (s.conns c).rxOpen then 1 else 0

/-- Lexicographic comparison of what is left to do. -/
def Below (N : Nat) (s s' : Sys) : Prop :=
  s.life < s'.life ∨ s.life = s'.life ∧ (phases N s < phases N s' ∨ phases N s = phases N s' ∧ (input N s < input N s' ∨ input N s = input N s' ∧
    (mail N s < mail N s' ∨ mail N s = mail N s' ∧ (s.busyness < s'.busyness ∨ s.busyness = s'.busyness ∧ output N s < output N s'))))

theorem below_wf (N : Nat) : WellFounded (Below N) := by
  have hw : WellFounded (Prod.Lex (· < ·) (Prod.Lex (· < ·) (Prod.Lex (· < ·) (Prod.Lex (· < ·) (Prod.Lex (· < ·) (· < ·)))))
      : Nat × Nat × Nat × Nat × Nat × Nat → _ → Prop) :=
    (Prod.lex ⟨_, Nat.lt_wfRel.wf⟩ (Prod.lex ⟨_, Nat.lt_wfRel.wf⟩ (Prod.lex ⟨_, Nat.lt_wfRel.wf⟩ (Prod.lex ⟨_, Nat.lt_wfRel.wf⟩
      (Prod.lex ⟨_, Nat.lt_wfRel.wf⟩ ⟨_, Nat.lt_wfRel.wf⟩))))).wf
  refine Subrelation.wf (fun {s s'} h => ?_)
    (InvImage.wf (fun s : Sys => (s.life, phases N s, input N s, mail N s, s.busyness, output N s)) hw)
  show Prod.Lex _ _ (s.life, phases N s, input N s, mail N s, s.busyness, output N s)
    (s'.life, phases N s', input N s', mail N s', s'.busyness, output N s')
  rcases h with h | ⟨h, h'⟩
  · exact .left _ _ h
  rw [h]; refine .right _ ?_
  rcases h' with h | ⟨h, h'⟩
  · exact .left _ _ h
  rw [h]; refine .right _ ?_
  rcases h' with h | ⟨h, h'⟩
  · exact .left _ _ h
  rw [h]; refine .right _ ?_
  rcases h' with h | ⟨h, h'⟩
  · exact .left _ _ h
  rw [h]; refine .right _ ?_
  rcases h' with h | ⟨h, h'⟩
  · exact .left _ _ h
  rw [h]; exact .right _ h'

theorem setConn_same (s : Sys) (c : ConnId) : s.setConn c (s.conns c) = s := by
  have : (fun c' => if c' = c then s.conns c else s.conns c') = s.conns := by
    funext c'
    split
    · rename_i h; rw [h]
    · rfl
  unfold setConn
  rw [this]

theorem decoded_shrinks {pr : Profile} {pl pl' : Plain} {p : ControlPacket} (h : (Decoder.readPacket pr : M Plain _) pl = (.ok p, pl')) :
    pl'.bytes.length < pl.bytes.length := by
  obtain ⟨first, lf, n, body, hb, _, _⟩ := C10_only_well_formed pr pl.bytes pl.fin p pl' h
  rw [hb]
  simp only [List.cons_append, List.length_cons, List.length_append]
  omega

theorem readTask_progress {env : Env} {peer : Peer} {c : ConnId} {alive : Bool} {tk : List ClientEvent} {k : Conn}
    (h : ReadInv env peer c alive tk k) : readTask env c k = k ∨ phaseWeight (readTask env c k).phase < phaseWeight k.phase
      ∨ ((readTask env c k).phase = k.phase ∧ (unread (readTask env c k).rd).length < (unread k.rd).length) := by
  letI := RStream.source env.alloc
  unfold readTask
  cases hph : k.phase with
  | first =>
    simp only
    rcases hm : (Decoder.readPacket env.profile : M RStream ControlPacket) k.rd with ⟨r, rd⟩
    cases r with
    | ok p => cases p <;> exact .inr (.inl (by simp [phaseWeight]))
    | err e => exact .inr (.inl (by simp [phaseWeight]))
    | panic => exact .inr (.inl (by simp [phaseWeight]))
    | hang => exact .inr (.inl (by simp [phaseWeight]))
    | pending => exact .inl rfl
  | running id =>
    simp only
    rcases hm : (Decoder.readPacket env.profile : M RStream ControlPacket) k.rd with ⟨r, rd⟩
    cases r with
    | ok p =>
      obtain ⟨pl, hr⟩ := h.rel (.inr ⟨id, hph⟩)
      have hs := Sim.readPacket env.alloc closed_true env.profile k.rd pl hr trivial
      rw [hm] at hs
      obtain ⟨pl', h1, h2, _⟩ := hs
      refine .inr (.inr ⟨rfl, ?_⟩)
      have h3 := decoded_shrinks h1
      rw [← h2.bytes, ← hr.bytes] at h3
      exact h3
    | err e => exact .inr (.inl (by simp [phaseWeight]))
    | panic => exact .inr (.inl (by simp [phaseWeight]))
    | hang => exact .inr (.inl (by simp [phaseWeight]))
    | pending => exact .inl rfl
  | ended => exact .inl rfl
  | stuck => exact .inl rfl

theorem below_read (env : Env) {peers : ConnId → Peer} {N : Nat} {s : Sys} (h : Inv env peers s) {c : Nat} (hc : c < N) :
    stepRead env s c = s ∨ Below N (stepRead env s c) s := by
  have hother : ∀ (k : Conn) (d : ConnId), d ≠ c → (if d = c then k else s.conns d) = s.conns d := fun k d hd => if_neg hd
  unfold stepRead
  simp only
  cases ho : (s.conns c).outbox with
  | some ev =>
    simp only
    have hless : ∀ s' : Sys, s'.conns = (s.setConn c { s.conns c with outbox := none }).conns → outboxes N s' + 2 ≤ outboxes N s := by
      intro s' hs'
      unfold outboxes
      rw [hs']
      clear hs'
      induction N with
      | zero => omega
      | succ N ih =>
        rw [sumTo_succ, sumTo_succ]
        by_cases hcn : c = N
        · subst hcn
          rw [sumTo_congr (g := fun d => if (s.conns d).outbox.isSome then 2 else 0) fun d hd => by
            rw [setConn_other _ _ (Nat.ne_of_lt hd)]]
          simp [setConn_self, ho]
        · have := ih (by omega)
          rw [setConn_other s _ (show N ≠ c from fun h => hcn h.symm)]
          omega
    have hsame : ∀ (f : Conn → Nat), (∀ k : Conn, f { k with outbox := none } = f k) →
        sumTo N (fun d => f ((s.setConn c { s.conns c with outbox := none }).conns d)) = sumTo N fun d => f (s.conns d) := by
      intro f hf
      refine sumTo_congr fun d _ => ?_
      by_cases hd : d = c
      · subst hd; rw [setConn_self]; exact hf _
      · rw [setConn_other _ _ hd]
    have h1 := hsame (fun k => phaseWeight k.phase) fun _ => rfl
    have h2 := hsame (fun k => (unread k.rd).length) fun _ => rfl
    split
    · split
      · refine .inr (.inr ⟨rfl, .inr ⟨h1, .inr ⟨h2, .inl ?_⟩⟩⟩)
        have := hless ({ s with events := s.events ++ [ev] }.setConn c { s.conns c with outbox := none }) rfl
        unfold mail
        simp only [setConn, List.length_append, List.length_singleton] at this ⊢
        omega
      · exact .inl rfl
    · refine .inr (.inr ⟨rfl, .inr ⟨h1, .inr ⟨h2, .inl ?_⟩⟩⟩)
      have := hless (s.setConn c { s.conns c with outbox := none }) rfl
      unfold mail
      simp only [setConn] at this ⊢
      omega
  | none =>
    simp only
    rcases readTask_progress (h.reads.conn c) with hk | hk | ⟨hk, hk'⟩
    · rw [hk, setConn_same]; exact .inl rfl
    · refine .inr (.inr ⟨rfl, .inl (sumTo_lt hc ?_ fun d hd => ?_)⟩)
      · rw [setConn_self]; exact hk
      · rw [setConn_other _ _ hd]
    · refine .inr (.inr ⟨rfl, .inr ⟨sumTo_congr fun d _ => ?_, .inl (sumTo_lt hc ?_ fun d hd => ?_)⟩⟩)
      · by_cases hd : d = c
        · subst hd; rw [setConn_self, hk]
        · rw [setConn_other _ _ hd]
      · rw [setConn_self]; exact hk'
      · rw [setConn_other _ _ hd]

theorem below_write (env : Env) {N : Nat} (s : Sys) {c : Nat} (hc : c < N) :
    stepWrite env s c = s ∨ Below N (stepWrite env s c) s := by
  have key : ∀ k : Conn, k.phase = (s.conns c).phase → k.rd = (s.conns c).rd → k.outbox = (s.conns c).outbox →
      k.queue.length + (if k.rxOpen then 1 else 0) < (s.conns c).queue.length + (if (s.conns c).rxOpen then 1 else 0) →
      Below N (s.setConn c k) s := by
    intro k h1 h2 h3 h4
    refine .inr ⟨rfl, .inr ⟨sumTo_congr fun d _ => ?_, .inr ⟨sumTo_congr fun d _ => ?_, .inr ⟨?_, .inr ⟨rfl, sumTo_lt hc ?_ fun d hd => ?_⟩⟩⟩⟩⟩
    · by_cases hd : d = c
      · subst hd; rw [setConn_self, h1]
      · rw [setConn_other _ _ hd]
    · by_cases hd : d = c
      · subst hd; rw [setConn_self, h2]
      · rw [setConn_other _ _ hd]
    · unfold mail outboxes
      congr 1
      refine sumTo_congr fun d _ => ?_
      by_cases hd : d = c
      · subst hd; rw [setConn_self, h3]
      · rw [setConn_other _ _ hd]
    · rw [setConn_self]; exact h4
    · rw [setConn_other _ _ hd]
  unfold stepWrite
  simp only
  split
  · rename_i hx
    have hx : (s.conns c).rxOpen = true := by
      cases hr : (s.conns c).rxOpen with
      | true => rfl
      | false => simp [hr] at hx
    cases hq : (s.conns c).queue with
    | nil =>
      simp only
      split
      · exact .inl rfl
      · exact .inr (key _ rfl rfl rfl (by simp [hq, hx]))
    | cons e rest =>
      cases e with
      | controlPacket p =>
        simp only
        split <;> exact .inr (key _ rfl rfl rfl (by simp [hq, hx]))
      | disconnect => exact .inr (key _ rfl rfl rfl (by simp [hq, hx]))
  · exact .inl rfl

theorem below_handler (env : Env) (now : Instant) (N : Nat) (s : Sys) : stepHandler env now s = s ∨ Below N (stepHandler env now s) s := by
  unfold stepHandler
  cases hh : s.handler with
  | idle =>
    simp only
    cases he : s.events with
    | nil => exact .inl rfl
    | cons ev rest =>
      simp only
      split
      · exact .inr (.inl (by simp only [life, handlerAlive, hh, ↓reduceIte, Bool.false_eq_true]; split <;> omega))
      · exact .inr (.inr ⟨by simp only [life, handlerAlive, hh], .inr ⟨rfl, .inr ⟨rfl, .inl (by simp [mail, outboxes, he])⟩⟩⟩)
      · exact .inr (.inr ⟨by simp only [life, handlerAlive, hh], .inr ⟨rfl, .inr ⟨rfl, .inl (by simp [mail, outboxes, he])⟩⟩⟩)
  | busy todo =>
    cases todo with
    | nil =>
      exact .inr (.inr ⟨by simp only [life, handlerAlive, hh], .inr ⟨rfl, .inr ⟨rfl, .inr ⟨rfl, .inl (by simp [busyness, hh])⟩⟩⟩⟩)
    | cons x todo =>
      obtain ⟨d, e⟩ := x
      simp only
      split
      · split
        · have hsame : ∀ (f : Conn → Nat), (∀ k : Conn, ∀ q l, f { k with queue := q, delivered := l } = f k) → ∀ h q l,
              sumTo N (fun c => f ((({ s with handler := h } : Sys).setConn d { s.conns d with queue := q, delivered := l }).conns c))
                = sumTo N fun c => f (s.conns c) := by
            intro f hf h q l
            refine sumTo_congr fun c _ => ?_
            by_cases hc : c = d
            · subst hc; rw [setConn_self]; exact hf _ _ _
            · rw [setConn_other _ _ hc]
          refine .inr (.inr ⟨?_, .inr ⟨hsame (fun k => phaseWeight k.phase) (fun _ _ _ => rfl) _ _ _,
            .inr ⟨hsame (fun k => (unread k.rd).length) (fun _ _ _ => rfl) _ _ _, .inr ⟨?_, .inl ?_⟩⟩⟩⟩)
          · by_cases ht : todo = [] <;> simp [life, handlerAlive, hh, setConn, ht]
          · unfold mail outboxes
            rw [hsame (fun k => if k.outbox.isSome then 2 else 0) (fun _ _ _ => rfl)]
            rfl
          · by_cases ht : todo = [] <;> simp [busyness, hh, setConn, ht]
        · exact .inl rfl
      · exact .inr (.inl (by simp only [life, handlerAlive, hh, ↓reduceIte, Bool.false_eq_true]; split <;> omega))
  | crashed => exact .inl rfl
  | stopped => exact .inl rfl

theorem below_step (env : Env) {peers : ConnId → Peer} {N : Nat} {s : Sys} (h : Inv env peers s) {st : Step}
    (hc : ∀ c, st = .read c ∨ st = .write c → c < N) : step env s st = s ∨ Below N (step env s st) s := by
  cases st with
  | read c => exact below_read env h (hc c (.inl rfl))
  | write c => exact below_write env s (hc c (.inr rfl))
  | handler now => exact below_handler env now N s
  | ctrlC =>
    cases hx : s.ctrlC with
    | true =>
      refine .inl ?_
      show { s with ctrlC := true } = s
      rw [← hx]
    | false =>
      refine .inr (.inl ?_)
      have : handlerAlive (step env s .ctrlC) = handlerAlive s := rfl
      unfold life
      rw [this]
      simp [step, hx]
  | stop =>
    unfold step
    cases hh : s.handler with
    | idle =>
      simp only
      split
      · exact .inr (.inl (by simp only [life, handlerAlive, hh, ↓reduceIte, Bool.false_eq_true]; split <;> omega))
      · exact .inl rfl
    | _ => exact .inl rfl

/-! ### Coming to rest -/

theorem firstSteps_succ (σ : Nat → Step) (n : Nat) : firstSteps σ (n + 1) = firstSteps σ n ++ [σ n] := by
  simp [firstSteps, List.range_succ]

theorem run_succ (env : Env) (s : Sys) (σ : Nat → Step) (n : Nat) :
    run env s (firstSteps σ (n + 1)) = step env (run env s (firstSteps σ n)) (σ n) := by
  rw [firstSteps_succ, run_append]; rfl

theorem comes_to_rest (env : Env) (peers : ConnId → Peer) {N : Nat} {σ : Nat → Step} (hf : Few N σ) :
    ∃ n, ∀ m, n ≤ m → run env (init peers) (firstSteps σ m) = run env (init peers) (firstSteps σ n) := by
  have key : ∀ s, ∀ n, run env (init peers) (firstSteps σ n) = s →
      ∃ n, ∀ m, n ≤ m → run env (init peers) (firstSteps σ m) = run env (init peers) (firstSteps σ n) := by
    intro s
    refine (below_wf N).induction (C := fun s => ∀ n, run env (init peers) (firstSteps σ n) = s →
      ∃ n, ∀ m, n ≤ m → run env (init peers) (firstSteps σ m) = run env (init peers) (firstSteps σ n)) s ?_
    clear s
    intro s ih n hn
    by_cases hex : ∃ m, Below N (run env (init peers) (firstSteps σ m)) s
    · obtain ⟨m, hm⟩ := hex
      exact ih _ hm m rfl
    · refine ⟨n, fun m hm => ?_⟩
      obtain ⟨k, rfl⟩ := Nat.exists_eq_add_of_le hm
      clear hm
      induction k with
      | zero => rfl
      | succ k ihk =>
        have hs := run_succ env (init peers) σ (n + k)
        rcases below_step env (inv_run env peers (firstSteps σ (n + k))) (hf (n + k)) with h | h
        · rw [h] at hs
          exact hs.trans ihk
        · rw [← hs, ihk, hn] at h
          exact (hex ⟨_, h⟩).elim
  exact key _ 0 rfl

/-- Connections that are never scheduled stay as they were, as far as reading goes. -/
theorem untouched (env : Env) {N : Nat} {d : Nat} (hd : N ≤ d) {sched : List Step} (hf : ∀ st ∈ sched, ∀ c, st = .read c → c < N) {s : Sys}
    (h : (s.conns d).phase = .first) : ((run env s sched).conns d).phase = .first := by
  induction sched generalizing s with
  | nil => exact h
  | cons st sched ih =>
    rw [run_cons]
    refine ih (fun st' h' => hf st' (List.mem_cons_of_mem _ h')) ?_
    cases st with
    | read c =>
      have hc : c < N := hf _ List.mem_cons_self c rfl
      have hne : d ≠ c := by
        intro h
        rw [h] at hd
        exact Nat.not_lt.mpr hd hc
      have : (stepRead env s c).conns d = s.conns d := by
        unfold stepRead
        simp only
        repeat' split
        all_goals first | rfl | rw [setConn_other _ _ hne]
      rw [step, this]
      exact h
    | write c => rw [step, (stepWrite_reader env s c d).phase] ; exact h
    | handler now => rw [step, (stepHandler_reader env now s d).phase]; exact h
    | ctrlC => exact h
    | stop =>
      unfold step
      simp only
      repeat' split
      all_goals exact h

theorem few_firstSteps {N : Nat} {σ : Nat → Step} (hf : Few N σ) (n : Nat) : ∀ st ∈ firstSteps σ n, ∀ c, st = .read c → c < N := by
  intro st hst c hc
  obtain ⟨i, _, rfl⟩ := List.mem_map.mp hst
  exact hf i c (.inl hc)

/-- A connection that has not begun to be read is not sent anything. -/
theorem first_taken {env : Env} {peers : ConnId → Peer} {s : Sys} (h : Reads env peers s) {d : ConnId} (hp : (s.conns d).phase = .first) :
    s.taken d = [] := by
  obtain ⟨_, _, ps, pl, _, h1, _, _, h2⟩ := h.conn d
  rw [(h1 hp).1] at h2
  exact List.prefix_nil.mp h2

theorem first_todo {env : Env} {peers : ConnId → Peer} {s : Sys} (h : Inv env peers s) {d : ConnId} (hp : (s.conns d).phase = .first)
    {todo : List (ConnId × ServerEvent)} (hh : s.handler = .busy todo) : sentTo todo d = [] := by
  cases h.serves with
  | sending todo' pre ev b b' out hh' he hp' hs hr ho hout =>
    rw [hh] at hh'
    cases hh'
    cases hl : sentTo todo d with
    | nil => rfl
    | cons e l =>
      have hmem : e ∈ Broker.start.outputs env.auth s.served d := by rw [← ho d, hl]; simp
      obtain ⟨ev', h1, h2⟩ := outputs_from hmem
      have : ev' ∈ s.taken d := List.mem_filter.mpr ⟨List.mem_append_left _ h1, by simpa using h2⟩
      rw [first_taken h.reads hp] at this
      cases this
  | rest b hh' => rw [hh] at hh'; rcases hh' with h | h <;> cases h
  | failed _ _ _ hh' => rw [hh] at hh'; cases hh'
  | broken _ _ _ _ _ _ hh' => rw [hh] at hh'; cases hh'

/-- A state in which no task can do anything. -/
theorem at_rest (env : Env) {peers : ConnId → Peer} {P : ConnId → Prop} {s : Sys} (h : Inv env peers s)
    (hun : ∀ d, ¬ P d → (s.conns d).phase = .first) (hread : ∀ c, P c → step env s (.read c) = s)
    (hwrite : ∀ c, P c → step env s (.write c) = s) {now : Instant} (hhandler : step env s (.handler now) = s) :
    s.handler = .crashed ∨ s.handler = .stopped ∨ (∃ d e todo, P d ∧ Stuck s d e todo) ∨ Done env P s := by
  have hq : ∀ c, P c → (s.conns c).wrBlocked = false → (s.conns c).queue = [] := by
    intro c hc hb
    cases hx : (s.conns c).rxOpen with
    | false => exact (h.writes c).shut hx
    | true =>
      refine Classical.byContradiction fun hne => ?_
      have := write_takes env hx hb hne
      rw [hwrite c hc] at this
      omega
  cases hh : s.handler with
  | crashed => exact .inl rfl
  | stopped => exact .inr (.inl rfl)
  | busy todo =>
    refine .inr (.inr (.inl ?_))
    cases todo with
    | nil =>
      have : (step env s (.handler now)).handler = .idle := by simp [step, stepHandler, hh]
      rw [hhandler, hh] at this
      cases this
    | cons x todo =>
      obtain ⟨d, e⟩ := x
      have hdN : P d := by
        refine Classical.byContradiction fun hd => ?_
        have := first_todo h (hun d hd) hh
        simp [sentTo] at this
      have hroom : ¬ (s.conns d).queue.length < channelCapacity := by
        intro hr
        rcases handler_sends env now hh hr with h' | ⟨h', _⟩
        · rw [hhandler, hh] at h'; cases h'
        · rw [hhandler, hh] at h'
          split at h'
          · cases h'
          · exact absurd (congrArg List.length (HandlerState.busy.inj h')) (by simp)
      have hfull : 32 ≤ (s.conns d).queue.length := by unfold channelCapacity at hroom; omega
      have hne : (s.conns d).queue ≠ [] := by intro h'; rw [h'] at hfull; simp at hfull
      have hx : (s.conns d).rxOpen = true := by
        cases hx : (s.conns d).rxOpen with
        | true => rfl
        | false => exact absurd ((h.writes d).shut hx) hne
      refine ⟨d, e, todo, hdN, hh, hx, hfull, ?_⟩
      cases hb : (s.conns d).wrBlocked with
      | true => rfl
      | false => exact absurd (hq d hdN hb) hne
  | idle =>
    refine .inr (.inr (.inr ?_))
    have hev : s.events = [] := by
      cases hl : s.events with
      | nil => rfl
      | cons ev rest =>
        have : (step env s (.handler now)).log.length = s.log.length + 1 := by
          simp only [step, stepHandler, hh, hl]
          split <;> simp
        rw [hhandler] at this
        omega
    have hout : ∀ c, P c → (s.conns c).outbox = none := by
      intro c hc
      cases ho : (s.conns c).outbox with
      | none => rfl
      | some ev =>
        have : ((step env s (.read c)).conns c).outbox = none := by
          simp [step, stepRead, ho, hev, handlerAlive, hh, channelCapacity]
        rw [hread c hc, ho] at this
        cases this
    exact ⟨hh, hev, hout, hq, fun c hc hcan => read_changes h.reads hcan (hout c hc) (hread c hc)⟩

/-- Under a fair schedule. -/
theorem fair_rest (env : Env) (peers : ConnId → Peer) {N : Nat} {σ : Nat → Step} (hf : Fair N σ) :
    ∃ n, (∀ m, n ≤ m → run env (init peers) (firstSteps σ m) = run env (init peers) (firstSteps σ n))
      ∧ ((run env (init peers) (firstSteps σ n)).handler = .crashed ∨ (run env (init peers) (firstSteps σ n)).handler = .stopped
        ∨ (∃ d e todo, d < N ∧ Stuck (run env (init peers) (firstSteps σ n)) d e todo)
        ∨ AllDone env N (run env (init peers) (firstSteps σ n))) := by
  obtain ⟨n, hn⟩ := comes_to_rest env peers hf.few
  have key : ∀ m st, n ≤ m → σ m = st → step env (run env (init peers) (firstSteps σ n)) st = run env (init peers) (firstSteps σ n) := by
    intro m st hm hst
    have := run_succ env (init peers) σ m
    rw [hn m hm, hn (m + 1) (by omega), hst] at this
    exact this.symm
  obtain ⟨mh, now, hmh, hnow⟩ := hf.handler n
  refine ⟨n, hn, at_rest env (inv_run env peers _) (fun d hd => untouched env (Nat.le_of_not_lt hd) (few_firstSteps hf.few n) rfl) (fun c hc => ?_) (fun c hc => ?_)
    (key mh _ hmh hnow)⟩
  · obtain ⟨m, hm, hst⟩ := hf.read c hc n
    exact key m _ hm hst
  · obtain ⟨m, hm, hst⟩ := hf.write c hc n
    exact key m _ hm hst

/-! ### Everything decodable is taken -/

theorem readMany_mono {σ : Type} [ByteSource σ] {pr : Profile} {n m : Nat} {s t t' : σ} {ps qs : List ControlPacket}
    (h : (readMany pr n : M σ _) s = (.ok ps, t)) (hno : ∀ p u, (Decoder.readPacket pr : M σ _) t ≠ (.ok p, u))
    (h' : (readMany pr m : M σ _) s = (.ok qs, t')) : qs <+: ps := by
  induction n generalizing m s t ps qs with
  | zero =>
    cases h
    cases m with
    | zero => cases h'; exact List.prefix_rfl
    | succ m =>
      rw [readMany] at h'
      obtain ⟨q, u, hq, _⟩ := M.bind_eq_ok.mp h'
      exact (hno q u hq).elim
  | succ n ih =>
    cases m with
    | zero => cases h'; exact List.nil_prefix
    | succ m =>
      rw [readMany] at h h'
      obtain ⟨p, u, hp, h1⟩ := M.bind_eq_ok.mp h
      obtain ⟨ps', u₁, hps, h2⟩ := M.bind_eq_ok.mp h1
      obtain ⟨q, v, hq, h1'⟩ := M.bind_eq_ok.mp h'
      obtain ⟨qs', v₁, hqs, h2'⟩ := M.bind_eq_ok.mp h1'
      rw [hp] at hq
      simp only [Prod.mk.injEq, Res.ok.injEq] at hq
      obtain ⟨rfl, rfl⟩ := hq
      simp only [M.pure_apply, Prod.mk.injEq, Res.ok.injEq] at h2 h2'
      obtain ⟨rfl, rfl⟩ := h2
      obtain ⟨rfl, rfl⟩ := h2'
      exact List.cons_prefix_cons.mpr ⟨rfl, ih hps hno hqs⟩

theorem eventsOf_mono {peer : Peer} {c : ConnId} {ps qs : List ControlPacket} (h : qs <+: ps) : eventsOf peer c qs <+: eventsOf peer c ps := by
  cases qs with
  | nil => exact List.nil_prefix
  | cons q qs =>
    cases ps with
    | nil => cases List.prefix_nil.mp h
    | cons p ps =>
      obtain ⟨rfl, h1⟩ := List.cons_prefix_cons.mp h
      cases q with
      | connect p => exact List.cons_prefix_cons.mpr ⟨rfl, h1.map _⟩
      | _ => exact List.nil_prefix

/-- Whatever the bytes stand for is among these events. -/
def Complete (env : Env) (peer : Peer) (c : ConnId) (tk : List ClientEvent) : Prop :=
  ∀ ps, Decodes env.profile peer.segs.flatten peer.fin ps → eventsOf peer c ps <+: tk

/-- A read task that ends has read all there was to read. -/
theorem readTask_ends {env : Env} {peer : Peer} {c : ConnId} {tk : List ClientEvent} {k : Conn} (h : ReadInv env peer c true tk k)
    (ho : k.outbox = none) (hp : k.phase ≠ .ended) (hp' : (readTask env c k).phase = .ended) :
    (readTask env c k).outbox = none ∧ Complete env peer c tk := by
  obtain ⟨_, _, ps, pl, hd, hf, hr, ha, _⟩ := h
  have ha := ha rfl
  rw [ho] at ha
  simp only [Option.toList_none, List.append_nil] at ha
  letI := RStream.source env.alloc
  have stop : (∀ p u, (Decoder.readPacket env.profile : M Plain _) pl ≠ (.ok p, u)) → Complete env peer c tk := by
    rintro hno qs ⟨t', hq⟩
    rw [ha]
    exact eventsOf_mono (readMany_mono hd hno hq)
  unfold readTask at hp' ⊢
  cases hph : k.phase with
  | first =>
    obtain ⟨rfl, hrel⟩ := hf hph
    have hs := Sim.readPacket env.alloc closed_true env.profile k.rd pl hrel trivial
    simp only [hph] at hp' ⊢
    rcases hm : (Decoder.readPacket env.profile : M RStream ControlPacket) k.rd with ⟨r, rd⟩
    rw [hm] at hs hp'
    cases r with
    | ok p =>
      obtain ⟨p', h1, _⟩ := hs
      have hcon : ∀ q : List ControlPacket, (∀ x, p ≠ .connect x) → Complete env peer c tk := by
        intro _ hne qs hq
        cases qs with
        | nil => exact List.nil_prefix
        | cons q qs =>
          have hd1 : Decodes env.profile peer.segs.flatten peer.fin [p] := ⟨p', readMany_snoc env.profile hd h1⟩
          have := Decodes.head hq hd1
          subst this
          cases q with
          | connect x => exact (hne x rfl).elim
          | _ => exact List.nil_prefix
      cases p with
      | connect q => simp at hp'
      | _ => exact ⟨ho, hcon [] (by simp)⟩
    | err e =>
      obtain ⟨p', h1⟩ := hs
      exact ⟨ho, stop fun p u hpu => by rw [h1] at hpu; cases hpu⟩
    | panic =>
      obtain ⟨p', h1⟩ := hs
      exact ⟨ho, stop fun p u hpu => by rw [h1] at hpu; cases hpu⟩
    | hang => simp at hp'
    | pending => exact absurd hp' hp
  | running id =>
    obtain ⟨hrel, _⟩ := hr id hph
    have hs := Sim.readPacket env.alloc closed_true env.profile k.rd pl hrel trivial
    simp only [hph] at hp' ⊢
    rcases hm : (Decoder.readPacket env.profile : M RStream ControlPacket) k.rd with ⟨r, rd⟩
    rw [hm] at hs hp'
    cases r with
    | ok p => simp at hp'
    | err e =>
      obtain ⟨p', h1⟩ := hs
      exact ⟨ho, stop fun p u hpu => by rw [h1] at hpu; cases hpu⟩
    | panic =>
      obtain ⟨p', h1⟩ := hs
      exact ⟨ho, stop fun p u hpu => by rw [h1] at hpu; cases hpu⟩
    | hang => simp at hp'
    | pending => exact absurd hp' hp
  | ended => exact absurd hph hp
  | stuck => simp [hph] at hp'

/-- As long as the handler lives, what an ended read task has read is taken or on its way. -/
def EndsComplete (env : Env) (peers : ConnId → Peer) (s : Sys) : Prop :=
  ∀ c, (s.conns c).phase = .ended → s.handlerAlive = true → Complete env (peers c) c (s.taken c ++ (s.conns c).outbox.toList)

theorem EndsComplete.congr {env : Env} {peers : ConnId → Peer} {s s' : Sys} (h : EndsComplete env peers s)
    (hk : ∀ c, SameReader (s.conns c) (s'.conns c)) (ht : s'.log.map Prod.fst ++ s'.events = s.log.map Prod.fst ++ s.events)
    (ha : s'.handlerAlive = true → s.handlerAlive = true) : EndsComplete env peers s' := by
  intro c hp hal
  have : s'.taken c = s.taken c := by rw [taken, taken, ht]
  rw [this, (hk c).outbox]
  exact h c ((hk c).phase ▸ hp) (ha hal)

theorem endsComplete_step (env : Env) (peers : ConnId → Peer) (s : Sys) (st : Step) (hr : Reads env peers s) (h : EndsComplete env peers s) :
    EndsComplete env peers (step env s st) := by
  cases st with
  | read c =>
    unfold step stepRead
    simp only
    cases ho : (s.conns c).outbox with
    | none =>
      simp only
      intro d hp hal
      by_cases hd : d = c
      · subst hd
        rw [setConn_self] at hp ⊢
        by_cases hend : (s.conns d).phase = .ended
        · have : readTask env d (s.conns d) = s.conns d := by unfold readTask; rw [hend]
          rw [this]
          exact h d hend hal
        · have hri : ReadInv env (peers d) d true (s.taken d) (s.conns d) := by
            have := hr.conn d
            rwa [show s.handlerAlive = true from hal] at this
          obtain ⟨h1, h2⟩ := readTask_ends hri ho hend hp
          rw [h1, Option.toList_none, List.append_nil]
          exact h2
      · rw [setConn_other _ _ hd] at hp ⊢
        exact h d hp hal
    | some ev =>
      simp only
      by_cases hal : s.handlerAlive = true
      · rw [if_pos hal]
        by_cases hroom : s.events.length < channelCapacity
        · rw [if_pos hroom]
          obtain ⟨_, _, ps, pl, _, _, _, h6, _⟩ := hr.conn c
          have h6' := h6 hal
          rw [ho] at h6'
          have hfr : From c ev := from_eventsOf (peer := peers c) (ps := ps) (by rw [← h6']; simp)
          intro d hp _
          by_cases hd : d = c
          · subst hd
            rw [setConn_self] at hp ⊢
            have ht : taken (({ s with events := s.events ++ [ev] } : Sys).setConn d { s.conns d with outbox := none }) d
                = s.taken d ++ [ev] := by
              simp [taken, List.filter_append, hfr]
            rw [ht]
            have := h d hp hal
            rw [ho] at this
            simpa using this
          · rw [setConn_other _ _ hd] at hp ⊢
            have ht : taken (({ s with events := s.events ++ [ev] } : Sys).setConn c { s.conns c with outbox := none }) d
                = s.taken d := by
              have : ¬ From d ev := fun hf => hd (from_unique hf hfr)
              simp [taken, List.filter_append, this]
            rw [ht]
            exact h d hp hal
        · rw [if_neg hroom]; exact h
      · rw [if_neg hal]
        intro d _ hal'
        exact absurd hal' hal
  | write c =>
    obtain ⟨h1, h2, _, h4, _⟩ := stepWrite_rest env s c
    exact h.congr (stepWrite_reader env s c) (by simp only [step]; rw [h1, h4]) (fun ha => by simp only [step, handlerAlive, h2] at ha; exact ha)
  | handler now => exact h.congr (stepHandler_reader env now s) (stepHandler_taken env now s) (stepHandler_alive env now s)
  | ctrlC => exact h.congr (fun _ => SameReader.refl _) rfl (fun h => h)
  | stop =>
    unfold step
    cases hh : s.handler with
    | idle =>
      simp only
      split
      · exact h.congr (fun _ => SameReader.refl _) rfl (fun h => by cases h)
      · exact h
    | _ => exact h

theorem endsComplete_run (env : Env) (peers : ConnId → Peer) (sched : List Step) : EndsComplete env peers (run env (init peers) sched) :=
  (run_induction (P := fun s => Reads env peers s ∧ EndsComplete env peers s)
    (fun s st h => ⟨reads_step env peers s st h.1, endsComplete_step env peers s st h.1 h.2⟩)
    ⟨reads_init env peers, fun c hp => by cases hp⟩ sched).2

/-- When all is done, the handler has taken every event that a connection's bytes stand for, unless its read task spins. -/
theorem allDone_complete {env : Env} {peers : ConnId → Peer} {P : ConnId → Prop} {s : Sys} (hr : Reads env peers s)
    (he : EndsComplete env peers s) (hd : Done env P s) {c : ConnId} (hc : P c) (hs : (s.conns c).phase ≠ .stuck) :
    Complete env (peers c) c ((s.log.map Prod.fst).filter (From c)) := by
  have hal : s.handlerAlive = true := by simp [handlerAlive, hd.handler]
  have htk : s.taken c = (s.log.map Prod.fst).filter (From c) := by rw [taken, hd.events, List.append_nil]
  rw [← htk]
  have reading : ((s.conns c).phase = .first ∨ ∃ id, (s.conns c).phase = .running id) → Complete env (peers c) c (s.taken c) := by
    intro hp
    have hno : (decoded env.profile (unread (s.conns c).rd) (s.conns c).rd.fin).1 = .pending :=
      Classical.byContradiction fun h => hd.read c hc ⟨hp, h⟩
    obtain ⟨_, _, ps, pl, h1, h2, h3, h4, _⟩ := hr.conn c
    have hrel : Rel (s.conns c).rd pl := by
      rcases hp with hp | ⟨id, hp⟩
      · exact (h2 hp).2
      · exact (h3 id hp).1
    have hpl : pl = ⟨unread (s.conns c).rd, (s.conns c).rd.fin⟩ := by
      obtain ⟨b, f⟩ := pl
      have e1 := hrel.bytes
      have e2 := hrel.fin
      simp only at e1 e2
      rw [← e1, ← e2]
      rfl
    have h4 := h4 hal
    rw [hd.outbox c hc] at h4
    simp only [Option.toList_none, List.append_nil] at h4
    rintro qs ⟨t, hq⟩
    rw [h4]
    refine eventsOf_mono (readMany_mono h1 (fun p u hpu => ?_) hq)
    rw [hpl] at hpu
    unfold decoded at hno
    rw [hpu] at hno
    cases hno
  cases hp : (s.conns c).phase with
  | first => exact reading (.inl hp)
  | running id => exact reading (.inr ⟨id, hp⟩)
  | ended =>
    have := he c hp hal
    rw [hd.outbox c hc] at this
    simpa using this
  | stuck => exact absurd hp hs

/-! ### Short input, ctrl-c, and brokers that do not crash -/

/-- A read task whose connection brings fewer bytes than its buffer holds never spins. -/
def NoSpin (peers : ConnId → Peer) (s : Sys) : Prop :=
  ∀ c, (peers c).segs.flatten.length < 4096 → (s.conns c).phase ≠ .stuck
    ∧ (((s.conns c).phase = .first ∨ ∃ id, (s.conns c).phase = .running id) → Small (s.conns c).rd)

theorem readTask_noSpin {env : Env} {c : ConnId} {k : Conn} {pl : Plain}
    (hr : (k.phase = .first ∨ ∃ id, k.phase = .running id) → Rel k.rd pl)
    (h : k.phase ≠ .stuck ∧ ((k.phase = .first ∨ ∃ id, k.phase = .running id) → Small k.rd)) :
    (readTask env c k).phase ≠ .stuck
      ∧ (((readTask env c k).phase = .first ∨ ∃ id, (readTask env c k).phase = .running id) → Small (readTask env c k).rd) := by
  letI := RStream.source env.alloc
  obtain ⟨h1, h2⟩ := h
  unfold readTask
  cases hph : k.phase with
  | first =>
    have hs := Sim.readPacket env.alloc closed_small env.profile k.rd pl (hr (.inl hph)) (h2 (.inl hph))
    simp only
    rcases hm : (Decoder.readPacket env.profile : M RStream ControlPacket) k.rd with ⟨r, rd⟩
    rw [hm] at hs
    cases r with
    | ok p =>
      obtain ⟨_, _, _, h3⟩ := hs
      cases p <;> simp [h3]
    | hang => exact hs.elim
    | pending => exact ⟨by simp [hph], fun _ => h2 (.inl hph)⟩
    | _ => simp
  | running id =>
    have hs := Sim.readPacket env.alloc closed_small env.profile k.rd pl (hr (.inr ⟨id, hph⟩)) (h2 (.inr ⟨id, hph⟩))
    simp only
    rcases hm : (Decoder.readPacket env.profile : M RStream ControlPacket) k.rd with ⟨r, rd⟩
    rw [hm] at hs
    cases r with
    | ok p =>
      obtain ⟨_, _, _, h3⟩ := hs
      simp [h3]
    | hang => exact hs.elim
    | pending => exact ⟨by simp [hph], fun _ => h2 (.inr ⟨id, hph⟩)⟩
    | _ => simp
  | ended => simp [hph]
  | stuck => exact absurd hph h1

theorem NoSpin.congr {peers : ConnId → Peer} {s s' : Sys} (h : NoSpin peers s) (hk : ∀ c, SameReader (s.conns c) (s'.conns c)) : NoSpin peers s' := by
  intro c hc
  rw [(hk c).phase, (hk c).rd]
  exact h c hc

theorem noSpin_step (env : Env) (peers : ConnId → Peer) (s : Sys) (st : Step) (hr : Reads env peers s) (h : NoSpin peers s) :
    NoSpin peers (step env s st) := by
  cases st with
  | read c =>
    intro d hd
    by_cases hdc : d = c
    · subst hdc
      have hout : (stepRead env s d).conns d = readTask env d (s.conns d)
          ∨ (stepRead env s d).conns d = { s.conns d with outbox := none } ∨ (stepRead env s d).conns d = s.conns d := by
        unfold stepRead
        simp only
        split
        · split
          · split
            · exact .inr (.inl (by rw [setConn_self]))
            · exact .inr (.inr rfl)
          · exact .inr (.inl (by rw [setConn_self]))
        · exact .inl (by rw [setConn_self])
      rw [step]
      rcases hout with h' | h' | h'
      · rw [h']
        obtain ⟨_, _, ps, pl, _, h1, h2, _, _⟩ := hr.conn d
        refine readTask_noSpin (pl := pl) (fun hp => ?_) (h d hd)
        rcases hp with hp | ⟨id, hp⟩
        · exact (h1 hp).2
        · exact (h2 id hp).1
      · rw [h']; exact h d hd
      · rw [h']; exact h d hd
    · have : (stepRead env s c).conns d = s.conns d := by
        unfold stepRead
        simp only
        repeat' split
        all_goals first | rfl | rw [setConn_other _ _ hdc]
      rw [step, this]
      exact h d hd
  | write c => exact h.congr (stepWrite_reader env s c)
  | handler now => exact h.congr (stepHandler_reader env now s)
  | ctrlC => exact h
  | stop =>
    unfold step
    simp only
    repeat' split
    all_goals exact h

theorem noSpin_run (env : Env) (peers : ConnId → Peer) (sched : List Step) : NoSpin peers (run env (init peers) sched) :=
  (run_induction (P := fun s => Reads env peers s ∧ NoSpin peers s)
    (fun s st h => ⟨reads_step env peers s st h.1, noSpin_step env peers s st h.1 h.2⟩)
    ⟨reads_init env peers, fun c hc => ⟨by simp [init, Peer.conn], fun _ => by
      simpa [Small, RStream.total, RStream.new, BytesMut.withCapacity, init, Peer.conn] using hc⟩⟩ sched).2

/-- The handler stops only if ctrl-c was pressed. -/
theorem stopped_ctrlC (env : Env) {sched : List Step} {s : Sys} (hs : s.handler ≠ .stopped) (hc : s.ctrlC = false) (hn : .ctrlC ∉ sched) :
    (run env s sched).handler ≠ .stopped := by
  induction sched generalizing s with
  | nil => exact hs
  | cons st sched ih =>
    rw [run_cons]
    have hn' : Step.ctrlC ∉ sched := fun h => hn (List.mem_cons_of_mem _ h)
    cases st with
    | read c =>
      obtain ⟨h1, _, _, h4⟩ := stepRead_rest env s c
      exact ih (by rw [step, h1]; exact hs) (by rw [step, h4]; exact hc) hn'
    | write c =>
      obtain ⟨_, h2, _, _, h5⟩ := stepWrite_rest env s c
      exact ih (by rw [step, h2]; exact hs) (by rw [step, h5]; exact hc) hn'
    | handler now =>
      refine ih ?_ ?_ hn'
      · show (stepHandler env now s).handler ≠ .stopped
        unfold stepHandler
        cases hh : s.handler with
        | idle =>
          simp only
          split
          · rw [hh]; simp
          · split <;> simp [hh]
        | busy todo =>
          cases todo with
          | nil => simp
          | cons x todo =>
            simp only
            split
            · split
              · simp only [setConn]; split <;> simp
              · rw [hh]; simp
            · simp
        | crashed => simp [hh]
        | stopped => exact absurd hh hs
      · show (stepHandler env now s).ctrlC = false
        unfold stepHandler
        simp only
        repeat' split
        all_goals exact hc
    | ctrlC => exact (hn List.mem_cons_self).elim
    | stop =>
      have : step env s .stop = s := by
        unfold step
        cases hh : s.handler <;> simp [hc]
      rw [this]
      exact ih hs hc hn'

/-- A client that connected and did not leave is reached. -/
theorem reached_of_connected {auth : IdentityProvider} {evs : List ClientEvent} {id : ClientId} (hacc : ∀ p addr tx, .connected p addr tx ∈ evs → login auth p = .accepted)
    (hstay : ∀ ev ∈ evs, (∀ i tx, ev ≠ .controlPacket i .disconnect tx) ∧ ∀ i, ev ≠ .connectionLost i)
    (h : ∃ p addr tx, .connected p addr tx ∈ evs ∧ p.clientId = id) : ∃ c, ReachedOn auth evs id c := by
  obtain ⟨l, rfl⟩ : ∃ l, evs = l.reverse := ⟨evs.reverse, by simp⟩
  induction l with
  | nil => obtain ⟨_, _, _, h, _⟩ := h; simp at h
  | cons ev l ih =>
    rw [List.reverse_cons] at *
    by_cases hch : ∃ p addr tx, ev = .connected p addr tx ∧ p.clientId = id
    · obtain ⟨p, addr, tx, rfl, hid⟩ := hch
      exact ⟨tx, reachedOn_append.mpr (.inl ⟨p, addr, rfl, hid, hacc p addr tx (by simp)⟩)⟩
    · obtain ⟨p, addr, tx, hmem, hid⟩ := h
      obtain ⟨c, hc⟩ := ih (fun p addr tx hp => hacc p addr tx (List.mem_append_left _ hp)) (fun ev' h' => hstay ev' (List.mem_append_left _ h'))
        ⟨p, addr, tx, by
          rcases List.mem_append.mp hmem with h | h
          · exact h
          · exact (hch ⟨p, addr, tx, (List.mem_singleton.mp h).symm, hid⟩).elim, hid⟩
      refine ⟨c, reachedOn_append.mpr (.inr ⟨fun hcs => ?_, hc⟩)⟩
      have hst := hstay ev (by simp)
      cases ev with
      | connected p' addr' tx' => exact hch ⟨p', addr', tx', rfl, hcs.1⟩
      | controlPacket i q tx' =>
        cases q with
        | disconnect => exact hst.1 i tx' rfl
        | _ => exact hcs
      | disconnected i => exact hcs
      | connectionLost i => exact hst.2 i rfl

/-- An event taken comes from a packet of its connection. -/
theorem orderly_packet {env : Env} {peers : ConnId → Peer} {evs : List ClientEvent} (h : Orderly env peers evs) {id : ClientId} {q : ControlPacket}
    {tx : ConnId} (hm : .controlPacket id q tx ∈ evs) : ∃ ps, Decodes env.profile (peers tx).segs.flatten (peers tx).fin ps ∧ q ∈ ps := by
  obtain ⟨ps, h1, h2⟩ := h tx
  have hmem : ClientEvent.controlPacket id q tx ∈ eventsOf (peers tx) tx ps := h2.subset (List.mem_filter.mpr ⟨hm, by simp [From]⟩)
  refine ⟨ps, h1, ?_⟩
  unfold eventsOf at hmem
  split at hmem
  · rcases List.mem_cons.mp hmem with h | h
    · cases h
    · obtain ⟨q', hq', he⟩ := List.mem_map.mp h
      cases he
      exact List.mem_cons_of_mem _ hq'
  · cases hmem

theorem orderly_connect {env : Env} {peers : ConnId → Peer} {evs : List ClientEvent} (h : Orderly env peers evs) {p : ConnectPacket} {addr : SocketAddr}
    {tx : ConnId} (hm : .connected p addr tx ∈ evs) : ∃ q ps, Decodes env.profile (peers tx).segs.flatten (peers tx).fin (.connect q :: ps)
      ∧ p = { q with clientId := idOf (peers tx) q } := by
  obtain ⟨ps, h1, h2⟩ := h tx
  have hmem : ClientEvent.connected p addr tx ∈ eventsOf (peers tx) tx ps := h2.subset (List.mem_filter.mpr ⟨hm, by simp [From]⟩)
  unfold eventsOf at hmem
  split at hmem
  · rename_i q ps'
    rcases List.mem_cons.mp hmem with h | h
    · cases h
      exact ⟨q, ps', h1, rfl⟩
    · obtain ⟨_, _, he⟩ := List.mem_map.mp h
      cases he
  · cases hmem

/-- If everybody is accepted, and either nobody leaves or nobody pings, nothing is fatal. -/
theorem not_fatal {env : Env} {peers : ConnId → Peer} {evs : List ClientEvent} (h : Orderly env peers evs) (hfrom : ∀ ev ∈ evs, ∃ c, From c ev)
    (hacc : ∀ c q ps, Decodes env.profile (peers c).segs.flatten (peers c).fin (.connect q :: ps) → login env.auth q = .accepted)
    (hping : (∀ c ps, Decodes env.profile (peers c).segs.flatten (peers c).fin ps → .pingReq ∉ ps)
      ∨ ∀ c ps, Decodes env.profile (peers c).segs.flatten (peers c).fin ps → .disconnect ∉ ps) : ¬ Fatal env.auth evs := by
  have hlog : ∀ p addr tx, .connected p addr tx ∈ evs → login env.auth p = .accepted := by
    intro p addr tx hp
    obtain ⟨q, ps, hd, rfl⟩ := orderly_connect h hp
    exact hacc tx q ps hd
  rintro ⟨pre, ev, rfl, ⟨p, addr, tx, rfl, hl⟩ | ⟨id, p, tx, rfl, _, hta⟩⟩
  · rw [hlog p addr tx (by simp)] at hl
    cases hl
  · rcases hta with ⟨p', addr, hp', hl⟩ | ⟨pre', id', post', rfl, hno⟩
    · rw [hlog p' addr tx (List.mem_append_left _ hp')] at hl
      cases hl
    · have hmem : ClientEvent.controlPacket id' .pingReq tx ∈ pre' ++ .controlPacket id' .pingReq tx :: post' ++ [.controlPacket id p tx] := by simp
      rcases hping with hping | hping
      · obtain ⟨ps, hd, hq⟩ := orderly_packet h hmem
        exact hping tx ps hd hq
      · have hord : Orderly env peers (pre' ++ [.controlPacket id' .pingReq tx]) :=
          Orderly.pre (post := post' ++ [.controlPacket id p tx]) (by simpa using h)
        obtain ⟨p', addr, hp', hid⟩ := Orderly.connected_before hord
        obtain ⟨c, hc⟩ := reached_of_connected (auth := env.auth) (evs := pre') (id := id')
          (fun p addr tx hp => hlog p addr tx (by simp [hp]))
          (fun ev hev => ⟨fun i t he => by
              subst he
              obtain ⟨ps, hd, hq⟩ := orderly_packet (id := i) (q := .disconnect) (tx := t) h (by simp [hev])
              exact hping t ps hd hq,
            fun i he => by
              subst he
              obtain ⟨c, hc⟩ := hfrom (.connectionLost i) (by simp [hev])
              exact hc⟩)
          ⟨p', addr, tx, hp', hid⟩
        exact hno c hc

/-- A write task that has ended has written all it was sent, up to the order to disconnect. -/
def WroteAll (k : Conn) : Prop :=
  k.rxOpen = false → ∃ rest, k.delivered = k.written.map .controlPacket ++ rest ∧ (rest = [] ∨ ∃ rest', rest = .disconnect :: rest')

theorem wroteAll_step (env : Env) (peers : ConnId → Peer) (s : Sys) (st : Step) (h : Inv env peers s) (d : ConnId)
    (hd : WroteAll (s.conns d)) : WroteAll ((step env s st).conns d) := by
  cases st with
  | read c =>
    obtain ⟨_, e2, _, _, e5, e6⟩ := stepRead_conn env s c d
    simp only [step]
    unfold WroteAll
    rw [e2, e5, e6]
    exact hd
  | write c =>
    simp only [step]
    by_cases hc : d = c
    · subst hc
      have hw := stepWrite_wrote env s d
      have hin := h.writes d
      have hk := fun p => delivered_kind h.serves (d := d) (p := p)
      generalize hk' : (stepWrite env s d).conns d = k' at hw
      cases hw with
      | idle => exact hd
      | packet p rest blocked hq ho hb hw hw' => intro hx; exact absurd hx (by simp [ho])
      | panic p rest hq ho hb hp =>
        exfalso
        have hall := hin.all ho
        have hmem : ∀ q ∈ (s.conns d).written ++ [p], (serverBytes q).isSome = true := by
          intro q hq'
          apply hk
          rw [hall, hq]
          rcases List.mem_append.mp hq' with hq' | hq'
          · exact List.mem_append_left _ (List.mem_map_of_mem hq')
          · rw [List.mem_singleton] at hq'; subst hq'; simp
        have := (C17_writer_terminates env.alloc 4096 (peers d).script (s.conns d).written p hmem).2
        rw [← hin.wr] at this
        exact this hp
      | disconnect rest hq ho => exact fun _ => ⟨_, by rw [← hq]; exact hin.all ho, .inr ⟨rest, rfl⟩⟩
      | gone hq ho hs => exact fun _ => ⟨[], by rw [← hq]; exact hin.all ho, .inl rfl⟩
    · rw [stepWrite_other env s hc]; exact hd
  | handler now =>
    simp only [step]
    rcases stepHandler_conn env now s d with he | ⟨e, todo, _, hrx, hroom, he⟩
    · rw [he]; exact hd
    · rw [he]; intro hx; exact absurd hx (by simp [hrx])
  | ctrlC => exact hd
  | stop =>
    unfold step
    cases hh : s.handler with
    | idle => simp only; split <;> exact hd
    | _ => exact hd

theorem wroteAll_run (env : Env) (peers : ConnId → Peer) (sched : List Step) (d : ConnId) :
    WroteAll ((run env (init peers) sched).conns d) := by
  obtain ⟨l, rfl⟩ : ∃ l, sched = l.reverse := ⟨sched.reverse, by simp⟩
  induction l with
  | nil => intro h; simp [run, init, Peer.conn] at h
  | cons st l ih =>
    rw [List.reverse_cons]
    have : run env (init peers) (l.reverse ++ [st]) = step env (run env (init peers) l.reverse) st := by simp [run]
    rw [this]
    exact wroteAll_step env peers _ st (inv_run env peers _) d ih

theorem takeWhile_map_append (ps : List ControlPacket) (rest : List ServerEvent) (h : rest = [] ∨ ∃ rest', rest = .disconnect :: rest') :
    (ps.map ServerEvent.controlPacket ++ rest).takeWhile (· ≠ .disconnect) = ps.map .controlPacket := by
  have : rest.takeWhile (· ≠ .disconnect) = [] := by rcases h with rfl | ⟨_, rfl⟩ <;> simp
  induction ps with
  | nil => exact this
  | cons p ps ih => simpa using this

end Sys

end Ratel
