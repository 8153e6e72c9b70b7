/-
Two rounds make the packet handler take an event or make a send.
-/
import Verif.Spec.Rounds
import Verif.Proofs.SysBound

namespace Ratel

open Decoder Encoder Spec

namespace Sys

/-! ### Steps -/

/-- A busy handler has something to send. -/
theorem busy_step (env : Env) (s : Sys) (st : Step) (h : s.handler ≠ .busy []) : (step env s st).handler ≠ .busy [] := by
  cases st with
  | read c => simp only [step, (stepRead_rest env s c).1]; exact h
  | write c => simp only [step, (stepWrite_rest env s c).2.1]; exact h
  | handler now =>
    simp only [step]
    unfold stepHandler
    split
    · split
      · exact h
      · simp only
        split
        · simp
        · rename_i hh _ _ _ _ _ _; simp only; exact h
        · rename_i hne _; simp only; intro hc; cases hc; exact hne rfl
    · simp
    · rename_i d e todo hh
      simp only
      split
      · split
        · simp only [setConn_handler]
          split
          · simp
          · rename_i hne; intro hc; cases hc; exact hne rfl
        · exact h
      · simp
    · exact h
    · exact h
  | ctrlC => exact h
  | stop =>
    unfold step
    cases hh : s.handler with
    | idle => simp only; split <;> simp [hh]
    | busy t => simp only [hh]; rw [← hh]; exact h
    | crashed => simp [hh]
    | stopped => simp [hh]

theorem busy_kept (env : Env) (peers : ConnId → Peer) (sched : List Step) : (run env (init peers) sched).handler ≠ .busy [] :=
  run_induction (P := fun s => s.handler ≠ .busy []) (fun s st h => busy_step env s st h) (by simp [init]) sched

/-- What no step takes back. -/
structure Later (s s' : Sys) : Prop where
  served : s.served <+: s'.served
  events : s.served ++ s.events <+: s'.served ++ s'.events
  delivered : ∀ d, (s.conns d).delivered <+: (s'.conns d).delivered
  written : ∀ d, (s.conns d).written <+: (s'.conns d).written
  queue : ∀ d, (s'.conns d).queue.length + (s.conns d).delivered.length ≤ (s.conns d).queue.length + (s'.conns d).delivered.length
  alive : s'.handlerAlive = true → s.handlerAlive = true
  blocked : ∀ d, (s'.conns d).wrBlocked = false → (s.conns d).wrBlocked = false
  open_ : ∀ d, (s'.conns d).rxOpen = true → (s.conns d).rxOpen = true

theorem Later.refl (s : Sys) : Later s s :=
  ⟨List.prefix_refl _, List.prefix_refl _, fun _ => List.prefix_refl _, fun _ => List.prefix_refl _, fun _ => Nat.le_refl _, id,
    fun _ => id, fun _ => id⟩

theorem Later.trans {s s' s'' : Sys} (h : Later s s') (h' : Later s' s'') : Later s s'' :=
  ⟨h.served.trans h'.served, h.events.trans h'.events, fun d => (h.delivered d).trans (h'.delivered d),
    fun d => (h.written d).trans (h'.written d), fun d => by have := h.queue d; have := h'.queue d; omega,
    fun a => h.alive (h'.alive a), fun d a => h.blocked d (h'.blocked d a), fun d a => h.open_ d (h'.open_ d a)⟩

theorem later_conns {s s' : Sys} (hc : s'.conns = s.conns) (h1 : s.served <+: s'.served)
    (h2 : s.served ++ s.events <+: s'.served ++ s'.events) (h3 : s'.handlerAlive = true → s.handlerAlive = true) : Later s s' :=
  ⟨h1, h2, fun d => by rw [hc]; exact List.prefix_refl _, fun d => by rw [hc]; exact List.prefix_refl _,
    fun d => by rw [hc]; exact Nat.le_refl _, h3, fun d => by rw [hc]; exact id, fun d => by rw [hc]; exact id⟩

theorem stepRead_events (env : Env) (s : Sys) (c : ConnId) : s.events <+: (stepRead env s c).events := by
  unfold stepRead
  simp only
  split
  · split
    · split
      · exact List.prefix_append _ _
      · exact List.prefix_refl _
    · exact List.prefix_refl _
  · exact List.prefix_refl _

theorem stepHandler_served (env : Env) (now : Instant) (s : Sys) : s.served <+: (stepHandler env now s).served := by
  unfold stepHandler served
  split
  · split
    · exact List.prefix_refl _
    · simp only
      split <;> simp
  · exact List.prefix_refl _
  · simp only
    split
    · split <;> exact List.prefix_refl _
    · exact List.prefix_refl _
  · exact List.prefix_refl _
  · exact List.prefix_refl _

theorem later_step (env : Env) (s : Sys) (st : Step) : Later s (step env s st) := by
  cases st with
  | read c =>
    have hr := stepRead_rest env s c
    have hk := stepRead_conn env s c
    have hs : (stepRead env s c).served = s.served := by simp only [served, hr.2.2.1]
    simp only [step]
    refine ⟨by rw [hs]; exact List.prefix_refl _, ?_, fun d => by rw [(hk d).2.2.2.2.2]; exact List.prefix_refl _,
      fun d => by rw [(hk d).2.2.2.2.1]; exact List.prefix_refl _, fun d => by rw [(hk d).1, (hk d).2.2.2.2.2]; exact Nat.le_refl _,
      ?_, fun d => by rw [(hk d).2.2.2.1]; exact id, fun d => by rw [(hk d).2.1]; exact id⟩
    · rw [hs]; exact (List.prefix_append_right_inj _).mpr (stepRead_events env s c)
    · simp only [handlerAlive, hr.1]; exact id
  | write c =>
    have hr := stepWrite_rest env s c
    have hs : (stepWrite env s c).served = s.served := by simp only [served, hr.2.2.2.1]
    simp only [step]
    have hother : ∀ d, d ≠ c → (stepWrite env s c).conns d = s.conns d := fun d hd => stepWrite_other env s hd
    have hw := stepWrite_wrote env s c
    generalize hk' : (stepWrite env s c).conns c = k' at hw
    have key : (s.conns c).delivered <+: k'.delivered ∧ (s.conns c).written <+: k'.written
        ∧ k'.queue.length + (s.conns c).delivered.length ≤ (s.conns c).queue.length + k'.delivered.length
        ∧ (k'.wrBlocked = false → (s.conns c).wrBlocked = false) ∧ (k'.rxOpen = true → (s.conns c).rxOpen = true) := by
      cases hw with
      | idle => exact ⟨List.prefix_refl _, List.prefix_refl _, Nat.le_refl _, id, id⟩
      | packet p rest blocked hq ho hb hw hw' =>
        exact ⟨List.prefix_refl _, List.prefix_append _ _, by simp [hq], fun _ => hb, fun _ => ho⟩
      | panic p rest hq ho hb hp => exact ⟨List.prefix_refl _, List.prefix_append _ _, by simp, fun _ => hb, fun _ => ho⟩
      | disconnect rest hq ho => exact ⟨List.prefix_refl _, List.prefix_refl _, by simp, id, fun _ => ho⟩
      | gone hq ho hs => exact ⟨List.prefix_refl _, List.prefix_refl _, by simp, id, fun _ => ho⟩
    have all : ∀ d, (s.conns d).delivered <+: ((stepWrite env s c).conns d).delivered
        ∧ (s.conns d).written <+: ((stepWrite env s c).conns d).written
        ∧ ((stepWrite env s c).conns d).queue.length + (s.conns d).delivered.length
          ≤ (s.conns d).queue.length + ((stepWrite env s c).conns d).delivered.length
        ∧ (((stepWrite env s c).conns d).wrBlocked = false → (s.conns d).wrBlocked = false)
        ∧ (((stepWrite env s c).conns d).rxOpen = true → (s.conns d).rxOpen = true) := by
      intro d
      by_cases hd : d = c
      · subst hd; rw [hk']; exact key
      · rw [hother d hd]; exact ⟨List.prefix_refl _, List.prefix_refl _, Nat.le_refl _, id, id⟩
    refine ⟨by rw [hs]; exact List.prefix_refl _, by rw [hs, hr.1]; exact List.prefix_refl _, fun d => (all d).1, fun d => (all d).2.1,
      fun d => (all d).2.2.1, ?_, fun d => (all d).2.2.2.1, fun d => (all d).2.2.2.2⟩
    simp only [handlerAlive, hr.2.1]; exact id
  | handler now =>
    simp only [step]
    have hk := stepHandler_conn env now s
    refine ⟨stepHandler_served env now s, ?_, fun d => ?_, fun d => ?_, fun d => ?_, stepHandler_alive env now s, fun d => ?_, fun d => ?_⟩
    · have := stepHandler_taken env now s
      simp only [served]
      rw [this]
      exact List.prefix_refl _
    all_goals
      rcases hk d with he | ⟨e, todo, _, ho, _, he⟩ <;> rw [he] <;> simp
    · omega
  | ctrlC => exact later_conns rfl (List.prefix_refl _) (List.prefix_refl _) id
  | stop =>
    unfold step
    cases hh : s.handler with
    | idle =>
      simp only
      split
      · exact later_conns rfl (List.prefix_refl _) (List.prefix_refl _) (fun h => by simp [handlerAlive] at h)
      · exact Later.refl s
    | _ => exact Later.refl s

theorem later_run (env : Env) (s : Sys) (sched : List Step) : Later s (run env s sched) :=
  run_induction (P := fun t => Later s t) (fun t st h => h.trans (later_step env t st)) (Later.refl s) sched

/-! ### Counting what the handler does -/

/-- Events taken and sends made. -/
def acts (N : Nat) (s : Sys) : Nat := s.served.length + sentSoFar N s

theorem sentSoFar_eq (N : Nat) (s : Sys) : sentSoFar N s = sumTo N fun d => (s.conns d).delivered.length := rfl

theorem Later.acts {s s' : Sys} (h : Later s s') (N : Nat) : acts N s ≤ acts N s' := by
  unfold Sys.acts
  rw [sentSoFar_eq, sentSoFar_eq]
  have := h.served.length_le
  have := sumTo_le (N := N) (f := fun d => (s.conns d).delivered.length) (g := fun d => (s'.conns d).delivered.length)
    fun c _ => (h.delivered c).length_le
  omega

/-- If the count stays, nothing was delivered to a connection below `N`. -/
theorem Later.same_delivered {s s' : Sys} (h : Later s s') {N : Nat} (he : Sys.acts N s' = Sys.acts N s) {d : Nat} (hd : d < N) :
    (s'.conns d).delivered.length = (s.conns d).delivered.length := by
  unfold Sys.acts at he
  rw [sentSoFar_eq, sentSoFar_eq] at he
  have h1 := h.served.length_le
  have h2 := (h.delivered d).length_le
  by_cases hlt : (s.conns d).delivered.length < (s'.conns d).delivered.length
  · have : sumTo N (fun d => (s.conns d).delivered.length) < sumTo N fun d => (s'.conns d).delivered.length := by
      have a1 : sumTo N (fun c => (s.conns c).delivered.length)
          < sumTo N (fun c => if c = d then (s'.conns d).delivered.length else (s.conns c).delivered.length) :=
        sumTo_lt hd (by simpa using hlt) (fun c hc => by simp [hc])
      have a2 : sumTo N (fun c => if c = d then (s'.conns d).delivered.length else (s.conns c).delivered.length)
          ≤ sumTo N fun c => (s'.conns c).delivered.length := by
        refine sumTo_le fun c _ => ?_
        by_cases hc : c = d
        · rw [if_pos hc, hc]; exact Nat.le_refl _
        · rw [if_neg hc]; exact (h.delivered c).length_le
      omega
    omega
  · omega

/-- A send goes to a connection that is read from. -/
theorem todo_below (env : Env) (peers : ConnId → Peer) {N : Nat} {sched : List Step} (hN : ReadsBelow N sched) {d : Nat} {e : ServerEvent}
    {todo : List (ConnId × ServerEvent)} (hh : (run env (init peers) sched).handler = .busy ((d, e) :: todo)) : d < N := by
  refine Nat.lt_of_not_le fun hle => ?_
  have := first_todo (inv_run env peers sched) (untouched env hle hN (s := init peers) rfl) hh
  rw [sentTo_cons] at this
  simp at this

/-- A turn of the handler counts, unless it is at rest with nothing to do, or waits for room in a queue, or is dead. -/
theorem handler_counts (env : Env) (peers : ConnId → Peer) {N : Nat} {sched : List Step} (hN : ReadsBelow N sched) (now : Instant)
    (ha : (step env (run env (init peers) sched) (.handler now)).handlerAlive = true)
    (hw : (run env (init peers) sched).handler = .idle → (run env (init peers) sched).events ≠ [])
    (he : acts N (step env (run env (init peers) sched) (.handler now)) = acts N (run env (init peers) sched)) :
    ∃ d e todo, d < N ∧ (run env (init peers) sched).handler = .busy ((d, e) :: todo)
      ∧ ((run env (init peers) sched).conns d).rxOpen = true ∧ channelCapacity ≤ ((run env (init peers) sched).conns d).queue.length := by
  have hlater := later_step env (run env (init peers) sched) (.handler now)
  have hbelow := fun d e todo => todo_below env peers hN (d := d) (e := e) (todo := todo)
  have hbusy := busy_kept env peers sched
  generalize run env (init peers) sched = s at *
  have hsum := fun d hd => hlater.same_delivered he (d := d) hd
  cases hh : s.handler with
  | idle =>
    exfalso
    obtain ⟨ev, rest, hev⟩ := List.exists_cons_of_ne_nil (hw hh)
    have hlen : (step env s (.handler now)).served.length = s.served.length + 1 := by
      simp only [step, stepHandler, hh, hev, served]
      split <;> simp
    have hle := sumTo_le (N := N) (f := fun d => (s.conns d).delivered.length)
      (g := fun d => ((step env s (.handler now)).conns d).delivered.length) fun c _ => (hlater.delivered c).length_le
    unfold acts at he
    rw [sentSoFar_eq, sentSoFar_eq] at he
    omega
  | busy t =>
    cases t with
    | nil => exact absurd hh hbusy
    | cons x todo =>
      obtain ⟨d, e⟩ := x
      have hd := hbelow d e todo hh
      refine ⟨d, e, todo, hd, rfl, ?_, ?_⟩
      · cases ho : (s.conns d).rxOpen with
        | true => rfl
        | false => simp [step, stepHandler, hh, ho, handlerAlive] at ha
      · refine Nat.le_of_not_lt fun hlt => ?_
        have := hsum d hd
        cases ho : (s.conns d).rxOpen with
        | true => simp [step, stepHandler, hh, ho, hlt] at this
        | false => simp [step, stepHandler, hh, ho, handlerAlive] at ha
  | crashed => simp [step, stepHandler, hh, handlerAlive] at ha
  | stopped => simp [step, stepHandler, hh, handlerAlive] at ha

theorem mem_split {st : Step} {r : List Step} (h : st ∈ r) : ∃ a b, r = a ++ st :: b := List.append_of_mem h

/-- In two rounds the handler does something, unless it comes to rest meanwhile, with nothing to do. -/
theorem two_rounds (env : Env) (peers : ConnId → Peer) {N : Nat} {sched r₁ r₂ : List Step} (hN : ReadsBelow N (sched ++ r₁ ++ r₂))
    (h₁ : Round N r₁) (h₂ : Round N r₂)
    (ha : (run env (init peers) (sched ++ r₁ ++ r₂)).handlerAlive = true)
    (hb : ∀ c : Nat, c < N → ((run env (init peers) (sched ++ r₁ ++ r₂)).conns c).wrBlocked = false)
    (hw : ∀ a b, r₁ ++ r₂ = a ++ b → (run env (init peers) (sched ++ a)).handler = .idle → (run env (init peers) (sched ++ a)).events ≠ []) :
    acts N (run env (init peers) sched) + 1 ≤ acts N (run env (init peers) (sched ++ r₁ ++ r₂)) := by
  have hall := (later_run env (run env (init peers) sched) (r₁ ++ r₂)).acts N
  rw [← run_append, ← List.append_assoc] at hall
  refine Nat.lt_of_le_of_ne hall fun he => ?_
  obtain ⟨now, hnow⟩ := h₂.handler
  obtain ⟨a, b, hab⟩ := mem_split hnow
  -- the state before the handler's turn
  have hsplit : sched ++ r₁ ++ r₂ = (sched ++ r₁ ++ a) ++ .handler now :: b := by rw [hab]; simp
  have hend : run env (init peers) (sched ++ r₁ ++ r₂)
      = run env (step env (run env (init peers) (sched ++ r₁ ++ a)) (.handler now)) b := by
    rw [hsplit, run_append, run_cons]
  have l0 := later_run env (run env (init peers) sched) (r₁ ++ a)
  rw [← run_append, ← List.append_assoc] at l0
  have l1 := later_step env (run env (init peers) (sched ++ r₁ ++ a)) (.handler now)
  have l2 := later_run env (step env (run env (init peers) (sched ++ r₁ ++ a)) (.handler now)) b
  rw [← hend] at l2
  have e0 := l0.acts N
  have e1 := l1.acts N
  have e2 := l2.acts N
  have hN' : ReadsBelow N (sched ++ r₁ ++ a) := fun st hst => hN st (by rw [hsplit]; exact List.mem_append_left _ hst)
  obtain ⟨d, e, todo, hd, hh, ho, hfull⟩ := handler_counts env peers hN' now (l2.alive ha)
    (by rw [List.append_assoc]; exact hw (r₁ ++ a) (.handler now :: b) (by rw [hab]; simp)) (by omega)
  -- but the write task of that connection had its turn
  obtain ⟨a₁, b₁, hab₁⟩ := mem_split (h₁.write d hd)
  have hmid : sched ++ r₁ ++ a = (sched ++ a₁) ++ .write d :: (b₁ ++ a) := by rw [hab₁]; simp
  have hrun : run env (init peers) (sched ++ r₁ ++ a)
      = run env (step env (run env (init peers) (sched ++ a₁)) (.write d)) (b₁ ++ a) := by rw [hmid, run_append, run_cons]
  have m0 := later_run env (run env (init peers) sched) a₁
  rw [← run_append] at m0
  have m1 := later_step env (run env (init peers) (sched ++ a₁)) (.write d)
  have m2 := later_run env (step env (run env (init peers) (sched ++ a₁)) (.write d)) (b₁ ++ a)
  rw [← hrun] at m2
  have f0 := m0.acts N
  have f1 := m1.acts N
  have f2 := m2.acts N
  have hsame := m2.same_delivered (N := N) (d := d) (by omega) hd
  have hq := m2.queue d
  have hopen := m1.open_ d (m2.open_ d ho)
  have hblock := m1.blocked d (m2.blocked d (l1.blocked d (l2.blocked d (hb d hd))))
  have hcap := ((inv_run env peers (sched ++ a₁)).writes d).bound
  by_cases hne : ((run env (init peers) (sched ++ a₁)).conns d).queue = []
  · have hq1 := m1.queue d
    have hsame1 := m1.same_delivered (N := N) (d := d) (by omega) hd
    rw [hne] at hq1
    simp only [List.length_nil] at hq1
    unfold channelCapacity at hfull
    omega
  · have := write_takes env hopen hblock hne
    omega

/-! ### Events dealt with -/

/-- The events have been taken, and all the sequential broker sends for them has been sent. -/
structure Answered (env : Env) (X : List ClientEvent) (s : Sys) : Prop where
  served : X <+: s.served
  sent : ∀ d, Broker.start.outputs env.auth X d <+: (s.conns d).delivered

theorem Answered.later {env : Env} {X : List ClientEvent} {s s' : Sys} (h : Answered env X s) (l : Later s s') : Answered env X s' :=
  ⟨h.served.trans l.served, fun d => (h.sent d).trans (l.delivered d)⟩

theorem outputs_prefix (auth : IdentityProvider) {evs evs' : List ClientEvent} (h : evs <+: evs') (d : ConnId) :
    Broker.start.outputs auth evs d <+: Broker.start.outputs auth evs' d := by
  obtain ⟨t, rfl⟩ := h
  rw [outputs_append]
  exact List.prefix_append _ _

/-- Before that: the handler is not at rest with nothing to do, and has taken no events but these. -/
theorem not_answered {env : Env} {X : List ClientEvent} {s : Sys} (hs : Serves env s) (ha : s.handlerAlive = true)
    (hx : X <+: s.served ++ s.events) (hn : ¬ Answered env X s) :
    (s.handler = .idle → s.events ≠ []) ∧ s.served <+: X := by
  have hcomp := List.prefix_or_prefix_of_prefix hx (List.prefix_append s.served s.events)
  cases hs with
  | rest b hh h2 h3 h4 =>
    refine ⟨fun _ he => hn ?_, ?_⟩
    · rw [he, List.append_nil] at hx
      exact ⟨hx, fun d => by rw [h4 d]; exact outputs_prefix _ hx d⟩
    · rcases hcomp with h | h
      · exact absurd ⟨h, fun d => by rw [h4 d]; exact outputs_prefix _ h d⟩ hn
      · exact h
  | sending todo pre ev b b' out hh he hp hst hr ho hout =>
    refine ⟨fun h => (by rw [hh] at h; cases h), ?_⟩
    rcases hcomp with h | h
    · rw [he] at h ⊢
      rcases List.prefix_concat_iff.mp h with h | h
      · rw [h]; exact List.prefix_refl _
      · refine absurd ⟨by rw [he]; exact h.trans (List.prefix_append _ _), fun d => (outputs_prefix _ h d).trans ?_⟩ hn
        have h1 := ho d
        rw [he, outputs_snoc hp hst] at h1
        obtain ⟨t, ht⟩ := hout d
        rw [← ht, ← List.append_assoc] at h1
        exact ⟨t, (List.append_cancel_right h1).symm⟩
    · exact h
  | failed pre ev b hh => simp [handlerAlive, hh] at ha
  | broken pre ev b b' out d hh => simp [handlerAlive, hh] at ha

/-- As long as that is so, every two rounds count. -/
theorem rounds_count (env : Env) (peers : ConnId → Peer) {N : Nat} {X : List ClientEvent} (k : Nat) (sched : List Step) (rounds : List (List Step))
    (hk : 2 * k ≤ rounds.length) (hN : ReadsBelow N (sched ++ rounds.flatten)) (hr : ∀ r ∈ rounds, Round N r)
    (ha : (run env (init peers) (sched ++ rounds.flatten)).handlerAlive = true)
    (hb : ∀ c : Nat, c < N → ((run env (init peers) (sched ++ rounds.flatten)).conns c).wrBlocked = false)
    (hx : X <+: (run env (init peers) sched).served ++ (run env (init peers) sched).events)
    (hn : ¬ Answered env X (run env (init peers) (sched ++ rounds.flatten))) :
    acts N (run env (init peers) sched) + k ≤ acts N (run env (init peers) (sched ++ rounds.flatten)) := by
  induction k generalizing sched rounds with
  | zero =>
    have := (later_run env (run env (init peers) sched) rounds.flatten).acts N
    rwa [← run_append] at this
  | succ k ih =>
    match rounds, hk, hr with
    | r₁ :: r₂ :: rest, hk, hr =>
      have hflat : sched ++ (r₁ :: r₂ :: rest).flatten = (sched ++ r₁ ++ r₂) ++ rest.flatten := by simp
      rw [hflat] at hN ha hb hn ⊢
      have hback : ∀ a b, r₁ ++ r₂ = a ++ b → Later (run env (init peers) (sched ++ a))
          (run env (init peers) (sched ++ r₁ ++ r₂ ++ rest.flatten)) := by
        intro a b hab
        have : sched ++ r₁ ++ r₂ ++ rest.flatten = (sched ++ a) ++ (b ++ rest.flatten) := by
          rw [List.append_assoc sched, hab]; simp
        rw [this, run_append env _ (sched ++ a)]
        exact later_run env _ _
      have hl := hback (r₁ ++ r₂) [] (by simp)
      rw [← List.append_assoc] at hl
      have hfwd : ∀ a, X <+: (run env (init peers) (sched ++ a)).served ++ (run env (init peers) (sched ++ a)).events := by
        intro a
        rw [run_append]
        exact hx.trans (later_run env _ a).events
      have h1 := two_rounds env peers (sched := sched) (r₁ := r₁) (r₂ := r₂)
        (fun st hst => hN st (List.mem_append_left _ hst)) (hr r₁ (by simp)) (hr r₂ (by simp)) (hl.alive ha)
        (fun c hc => hl.blocked c (hb c hc))
        (fun a b hab => (not_answered (serves_run env peers _) ((hback a b hab).alive ha) (hfwd a)
          fun h => hn (h.later (hback a b hab))).1)
      have h2 := ih (sched ++ r₁ ++ r₂) rest (by simp only [List.length_cons] at hk; omega) hN (fun r h => hr r (by simp [h])) ha hb
        (by have := hfwd (r₁ ++ r₂); rwa [← List.append_assoc] at this) hn
      omega
    | [r], hk, hr => simp only [List.length_singleton] at hk; omega
    | [], hk, hr => simp only [List.length_nil] at hk; omega

/-- So after twice as many rounds as there is to do, they are dealt with. -/
theorem answered_in_time (env : Env) (peers : ConnId → Peer) {N : Nat} {pre : List ClientEvent} (sched : List Step) (rounds : List (List Step))
    (hN : ReadsBelow N (sched ++ rounds.flatten)) (hr : ∀ r ∈ rounds, Round N r)
    (ha : (run env (init peers) (sched ++ rounds.flatten)).handlerAlive = true)
    (hb : ∀ c : Nat, c < N → ((run env (init peers) (sched ++ rounds.flatten)).conns c).wrBlocked = false)
    (hx : pre <+: (run env (init peers) sched).events)
    (hlen : 2 * (pre.length + (sendsFor env.auth N ((run env (init peers) sched).served ++ pre) - sentSoFar N (run env (init peers) sched)) + 1)
      ≤ rounds.length) :
    Answered env ((run env (init peers) sched).served ++ pre) (run env (init peers) (sched ++ rounds.flatten)) := by
  refine Classical.byContradiction fun hn => ?_
  have hx' : (run env (init peers) sched).served ++ pre <+: (run env (init peers) sched).served ++ (run env (init peers) sched).events :=
    (List.prefix_append_right_inj _).mpr hx
  have h1 := rounds_count env peers _ sched rounds hlen hN hr ha hb hx' hn
  have hse := serves_run env peers (sched ++ rounds.flatten)
  have hl := later_run env (run env (init peers) sched) rounds.flatten
  rw [← run_append] at hl
  have h2 := (not_answered hse ha (hx'.trans hl.events) hn).2
  have h3 : sentSoFar N (run env (init peers) (sched ++ rounds.flatten)) ≤ sendsFor env.auth N ((run env (init peers) sched).served ++ pre) := by
    refine sumTo_le (N := N) (f := fun d => ((run env (init peers) (sched ++ rounds.flatten)).conns d).delivered.length)
      (g := fun d => (Broker.start.outputs env.auth ((run env (init peers) sched).served ++ pre) d).length) fun d _ => ?_
    exact ((hse.delivered d).trans (outputs_prefix _ h2 d)).length_le
  have h4 := h2.length_le
  rw [List.length_append] at h4
  unfold acts at h1
  omega

/-! ### Writing -/

theorem ahead {ws us : List ControlPacket} {rest : List ServerEvent}
    (h : ws.map ServerEvent.controlPacket <+: us.map .controlPacket ++ rest) (hn : ¬ ws <+: us) : ∃ q rest', rest = .controlPacket q :: rest' := by
  induction us generalizing ws with
  | nil =>
    cases ws with
    | nil => exact absurd (List.prefix_refl _) hn
    | cons w ws =>
      obtain ⟨t, ht⟩ := h
      exact ⟨w, _, ht.symm⟩
  | cons u us ih =>
    cases ws with
    | nil => exact absurd List.nil_prefix hn
    | cons w ws =>
      simp only [List.map_cons, List.cons_append, List.cons_prefix_cons, ServerEvent.controlPacket.injEq] at h
      exact ih h.2 fun hp => hn (by rw [h.1]; exact (List.cons_prefix_cons).mpr ⟨rfl, hp⟩)

/-- Packets in a queue that are ahead of all others are written, one per round. -/
theorem rounds_write (env : Env) (peers : ConnId → Peer) {N : Nat} {c : Nat} (hc : c < N) {ws : List ControlPacket} (k : Nat) (sched : List Step)
    (rounds : List (List Step)) (hk : k ≤ rounds.length) (hr : ∀ r ∈ rounds, Round N r)
    (hb : ((run env (init peers) (sched ++ rounds.flatten)).conns c).wrBlocked = false)
    (hw : ws.map .controlPacket <+: ((run env (init peers) sched).conns c).delivered)
    (hn : ¬ ws <+: ((run env (init peers) (sched ++ rounds.flatten)).conns c).written) :
    ((run env (init peers) sched).conns c).written.length + k
      ≤ ((run env (init peers) (sched ++ rounds.flatten)).conns c).written.length := by
  induction k generalizing sched rounds with
  | zero =>
    have := ((later_run env (run env (init peers) sched) rounds.flatten).written c).length_le
    rwa [← run_append] at this
  | succ k ih =>
    match rounds, hk, hr with
    | r :: rest, hk, hr =>
      obtain ⟨a, b, hab⟩ := mem_split ((hr r (by simp)).write c hc)
      have hflat : sched ++ (r :: rest).flatten = (sched ++ r) ++ rest.flatten := by simp
      rw [hflat] at hb hn ⊢
      have hmid : run env (init peers) (sched ++ r) = run env (step env (run env (init peers) (sched ++ a)) (.write c)) b := by
        rw [hab, ← run_cons, ← run_append, List.append_assoc]
      have l0 := later_run env (run env (init peers) sched) a
      rw [← run_append] at l0
      have l1 := later_step env (run env (init peers) (sched ++ a)) (.write c)
      have l2 := later_run env (step env (run env (init peers) (sched ++ a)) (.write c)) b
      rw [← hmid] at l2
      have l3 := later_run env (run env (init peers) (sched ++ r)) rest.flatten
      rw [← run_append] at l3
      have h2 := ih (sched ++ r) rest (by simp only [List.length_cons] at hk; omega) (fun r h => hr r (by simp [h])) hb
        (hw.trans ((l0.trans (l1.trans l2)).delivered c)) hn
      -- the turn of the write task
      have hin := (inv_run env peers (sched ++ a)).writes c
      have hall := wroteAll_run env peers (sched ++ a) c
      have hnt : ¬ ws <+: ((run env (init peers) (sched ++ a)).conns c).written :=
        fun h => hn (h.trans ((l1.trans (l2.trans l3)).written c))
      have hdel := hw.trans (l0.delivered c)
      have hwrote : ((run env (init peers) (sched ++ a)).conns c).written.length + 1
          ≤ ((step env (run env (init peers) (sched ++ a)) (.write c)).conns c).written.length := by
        have hbl := l1.blocked c (l2.blocked c (l3.blocked c hb))
        clear h2 ih l0 l1 l2 l3 hmid hb hn
        generalize run env (init peers) (sched ++ a) = t at *
        -- the packets are ahead of what else was delivered
        have hpre : ∀ rest, (t.conns c).delivered = (t.conns c).written.map .controlPacket ++ rest → ∃ q rest', rest = .controlPacket q :: rest' := by
          intro rest he
          rw [he] at hdel
          exact ahead hdel hnt
        cases ho : (t.conns c).rxOpen with
        | false =>
          obtain ⟨rest, h1, h2⟩ := hall ho
          obtain ⟨q, rest', hq⟩ := hpre rest h1
          rcases h2 with h2 | ⟨_, h2⟩ <;> rw [h2] at hq <;> cases hq
        | true =>
          obtain ⟨q, rest', hq⟩ := hpre _ (hin.all ho)
          simp only [step]
          unfold stepWrite
          simp only [ho, hbl, Bool.not_false, Bool.and_self, ↓reduceIte, hq]
          split <;> simp
      have := (l0.written c).length_le
      have := (l2.written c).length_le
      omega
    | [], hk, hr => simp only [List.length_nil] at hk; omega

end Sys

end Ratel
