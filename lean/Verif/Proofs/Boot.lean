/-
The process while it starts, compared with the process that starts with all its listeners.
-/
import Verif.Model.Boot
import Verif.Props.Process

namespace Ratel

open Decoder Encoder Spec Sys

namespace Sys

/-- The same state, ctrl-c not pressed. -/
def calm (s : Sys) : Sys := { s with ctrlC := false }

theorem calm_step (env : Env) (s : Sys) (st : Step) (hc : st ≠ .ctrlC) (hs : st ≠ .stop) : step env s.calm st = (step env s st).calm := by
  rcases s with ⟨conns, events, handler, messaging, ctrlC, log⟩
  cases st with
  | read c =>
    simp only [calm, step, stepRead, handlerAlive, setConn]
    cases ho : (conns c).outbox with
    | none => rfl
    | some ev =>
      simp only []
      by_cases hl : events.length < channelCapacity <;> cases handler <;> simp [hl]
  | write c =>
    have hsend : hasSender ⟨conns, events, handler, messaging, false, log⟩ c = hasSender ⟨conns, events, handler, messaging, ctrlC, log⟩ c := rfl
    simp only [calm, step, stepWrite, setConn, hsend]
    by_cases h1 : ((conns c).rxOpen && !(conns c).wrBlocked) = true
    · rw [if_pos h1, if_pos h1]
      rcases (conns c).queue with _ | ⟨_ | _, q⟩
      · by_cases h2 : hasSender ⟨conns, events, handler, messaging, ctrlC, log⟩ c = true
        · simp only [if_pos h2]
        · simp only [if_neg h2]
      · simp only []
        generalize @Encoder.writePacket _ (WStream.sink env.alloc) _ (conns c).wr = r
        rcases r with ⟨_ | _ | _ | _ | _, wr⟩ <;> rfl
      · rfl
    · rw [if_neg h1, if_neg h1]
  | handler now =>
    simp only [calm, step, stepHandler, setConn]
    rcases handler with _ | ⟨_ | ⟨⟨d, ev⟩, todo⟩⟩ | _ | _
    · rcases events with _ | ⟨ev, rest⟩
      · rfl
      · simp only []
        rcases Handler.handle env.auth now messaging ev with _ | ⟨m, _ | _⟩ <;> rfl
    · rfl
    · simp only []
      by_cases h1 : (conns d).rxOpen = true
      · refine (if_pos h1).trans ?_
        simp only [if_pos h1]
        by_cases h2 : (conns d).queue.length < channelCapacity
        · refine (if_pos h2).trans ?_
          simp only [if_pos h2]
        · refine (if_neg h2).trans ?_
          simp only [if_neg h2]
      · refine (if_neg h1).trans ?_
        simp only [if_neg h1]
    · rfl
    · rfl
  | ctrlC => exact absurd rfl hc
  | stop => exact absurd rfl hs

/-- As long as the handler has not stopped it makes no difference whether ctrl-c was pressed. -/
theorem calm_run (env : Env) (sched : List Step) {s : Sys} (h : (run env s sched).handler ≠ .stopped) :
    (run env s sched).calm = run env s.calm (sched.filter fun st => st ≠ .ctrlC ∧ st ≠ .stop) := by
  induction sched generalizing s with
  | nil => rfl
  | cons st sched ih =>
    by_cases hst : st ≠ .ctrlC ∧ st ≠ .stop
    · rw [List.filter_cons_of_pos (by simpa using hst)]
      show (run env (step env s st) sched).calm = run env (step env s.calm st) _
      rw [ih h, calm_step env s st hst.1 hst.2]
    · rw [List.filter_cons_of_neg (by simpa using hst)]
      show (run env (step env s st) sched).calm = _
      rw [ih h]
      have : (step env s st).calm = s.calm := by
        cases st with
        | ctrlC => rfl
        | stop =>
          have hns : (step env s .stop).handler ≠ .stopped := fun e => h (by
            suffices ∀ t : Sys, t.handler = .stopped → (run env t sched).handler = .stopped from this _ e
            clear ih h hst e
            induction sched with
            | nil => exact fun _ e => e
            | cons st' sched ih' =>
              intro t e
              refine ih' _ ?_
              rw [Proc.dead_step env (by simp [handlerAlive, e])]
              exact e)
          unfold step at hns ⊢
          cases hh : s.handler with
          | idle =>
            simp only [hh] at hns ⊢
            by_cases hc : s.ctrlC = true
            · rw [if_pos hc] at hns; exact absurd rfl hns
            · rw [if_neg hc]
          | _ => rfl
        | _ => exact absurd ⟨by simp, by simp⟩ hst
      rw [this]

end Sys

namespace Boot

theorem run_append (env : Env) (W : Nat) (b : Boot) (x y : List BStep) : run env W b (x ++ y) = run env W (run env W b x) y :=
  List.foldl_append

/-- What a process that has not come up yet would be, had it bound all addresses already and not failed at it. -/
def whole (b : Boot) : Proc := { b.proc with listeners := b.proc.listeners ++ List.replicate b.rest.length true, main := .serving }

/-- How a starting process compares to one of `L` listeners. -/
structure BInv (env : Env) (W L : Nat) (peers : ConnId → Peer) (b : Boot) : Prop where
  starting : b.ready = false → (∃ qs, Proc.run env W (Proc.start L peers) qs = b.whole) ∧ b.proc.sys.ctrlC = false
    ∧ b.proc.listeners.length + b.rest.length = L
    ∧ (b.proc.main = .serving ∨ b.proc.main = .panicked ∨ b.proc.main = .exited false)
  started : b.ready = true → b.rest = [] ∧ ∃ qs, Proc.run env W (Proc.start L peers) qs = b.proc

theorem binv_launched (env : Env) (W : Nat) (peers : ConnId → Peer) (addrs : List String) :
    BInv env W addrs.length peers ⟨Proc.start 0 peers, addrs, false⟩ where
  starting _ := ⟨⟨[], rfl⟩, rfl, by simp [Proc.start], .inl rfl⟩
  started h := by cases h

theorem Proc.run_snoc (env : Env) (W : Nat) (p : Proc) (qs : List PStep) (st : PStep) :
    Proc.run env W p (qs ++ [st]) = Proc.step env W (Proc.run env W p qs) st := by
  rw [Proc.run_append]; rfl

theorem binv_step {env : Env} {W L : Nat} {peers : ConnId → Peer} {b : Boot} (h : BInv env W L peers b) (st : BStep) :
    BInv env W L peers (b.step env W st) := by
  obtain ⟨p, rest, ready⟩ := b
  cases ready with
  | true =>
    obtain ⟨h1, qs, h2⟩ := h.started rfl
    have h1 : rest = [] := h1
    have h2 : Proc.run env W (Proc.start L peers) qs = p := h2
    subst h1
    have keep : ∀ st, BInv env W L peers ⟨Proc.step env W p st, [], true⟩ := fun st =>
      ⟨fun h => (by cases h), fun _ => ⟨rfl, qs ++ [st], by rw [Proc.run_snoc, h2]⟩⟩
    cases st with
    | bind ok =>
      have : (Boot.mk p [] true).step env W (.bind ok) = ⟨p, [], true⟩ := by
        simp only [step, stepBind]
        split <;> first | rfl | contradiction
      rw [this]; exact h
    | ready =>
      have : (Boot.mk p [] true).step env W .ready = ⟨p, [], true⟩ := by
        simp only [step, stepReady]
        split <;> rfl
      rw [this]; exact h
    | proc st =>
      cases st with
      | signal => exact keep .signal
      | _ => exact keep _
  | false =>
    obtain ⟨⟨qs, h1⟩, h2, h3, h4⟩ := h.starting rfl
    have h2 : p.sys.ctrlC = false := h2
    have h3 : p.listeners.length + rest.length = L := h3
    have h4 : p.main = .serving ∨ p.main = .panicked ∨ p.main = .exited false := h4
    cases st with
    | bind ok =>
      cases hm : p.main with
      | serving =>
        cases rest with
        | nil =>
          have : (Boot.mk p [] false).step env W (.bind ok) = ⟨p, [], false⟩ := by
            simp only [step, stepBind, hm]
          rw [this]; exact h
        | cons a rest =>
          cases ok with
          | true =>
            have : (Boot.mk p (a :: rest) false).step env W (.bind true) = ⟨{ p with listeners := p.listeners ++ [true] }, rest, false⟩ := by
              simp only [step, stepBind, hm, if_true]
            rw [this]
            refine ⟨fun _ => ⟨⟨qs, ?_⟩, h2, ?_, .inl hm⟩, fun h => by cases h⟩
            · rw [h1]
              simp [whole, List.replicate_succ]
            · simp only [List.length_append, List.length_cons, List.length_nil] at h3 ⊢
              omega
          | false =>
            have : (Boot.mk p (a :: rest) false).step env W (.bind false) = ⟨{ p with main := .panicked }, a :: rest, false⟩ := by
              simp [step, stepBind, hm]
            rw [this]
            exact ⟨fun _ => ⟨⟨qs, h1⟩, h2, h3, .inr (.inl rfl)⟩, fun h => by cases h⟩
      | _ =>
        have : (Boot.mk p rest false).step env W (.bind ok) = ⟨p, rest, false⟩ := by
          simp only [step, stepBind, hm]
        rw [this]; exact h
    | ready =>
      cases hm : p.main with
      | serving =>
        cases rest with
        | nil =>
          have : (Boot.mk p [] false).step env W .ready = ⟨p, [], true⟩ := by
            simp only [step, stepReady, hm]
          rw [this]
          refine ⟨fun h => (by cases h), fun _ => ⟨rfl, qs, ?_⟩⟩
          rw [h1]
          simp [whole, ← hm]
        | cons a rest =>
          have : (Boot.mk p (a :: rest) false).step env W .ready = ⟨p, a :: rest, false⟩ := by
            simp only [step, stepReady, hm]
          rw [this]; exact h
      | _ =>
        have : (Boot.mk p rest false).step env W .ready = ⟨p, rest, false⟩ := by
          simp only [step, stepReady, hm]
        rw [this]; exact h
    | proc st =>
      -- a step the whole process makes as well
      have same : ∀ st p', Proc.step env W (Boot.mk p rest false).whole st = (Boot.mk p' rest false).whole → p'.sys.ctrlC = false →
          p'.listeners.length = p.listeners.length → p'.main = p.main → BInv env W L peers ⟨p', rest, false⟩ := by
        intro st p' e1 e2 e3 e4
        refine ⟨fun _ => ⟨⟨qs ++ [st], by rw [Proc.run_snoc, h1, e1]⟩, e2, ?_, ?_⟩, fun h => by cases h⟩
        · show p'.listeners.length + rest.length = L
          rw [e3]; exact h3
        · show p'.main = _ ∨ _
          rw [e4]; exact h4
      have hidle : BInv env W L peers ⟨p, rest, false⟩ := h
      have hspin : (Boot.mk p rest false).whole.spinning = p.spinning := rfl
      have hsys : (Boot.mk p rest false).whole.sys = p.sys := rfl
      have hacc : (Boot.mk p rest false).whole.accepted = p.accepted := rfl
      have hfree : p.free W = true → (Boot.mk p rest false).whole.free W = true := by
        intro hf
        simp only [Proc.free, Bool.and_eq_true] at hf ⊢
        exact ⟨by rw [hspin]; exact hf.1, rfl⟩
      cases st with
      | accept l c =>
        show BInv env W L peers ⟨if p.free W && p.listeners[l]? == some true && !p.accepted.contains c then { p with accepted := c :: p.accepted } else p, rest, false⟩
        split
        · rename_i hc
          refine same (.accept l c) _ ?_ h2 rfl rfl
          simp only [Bool.and_eq_true] at hc
          have hl : (p.listeners ++ List.replicate rest.length true)[l]? = some true := by
            have h := eq_of_beq hc.1.2
            have hlt := (List.getElem?_eq_some_iff.mp h).1
            rw [List.getElem?_append_left hlt]; exact h
          have : ((Boot.mk p rest false).whole.free W && (Boot.mk p rest false).whole.listeners[l]? == some true
              && !(Boot.mk p rest false).whole.accepted.contains c) = true := by
            rw [hfree hc.1.1, hacc]
            show (true && (p.listeners ++ List.replicate rest.length true)[l]? == some true && _) = true
            rw [hl, hc.2]; rfl
          show (if _ then _ else _) = _
          rw [if_pos this]
          rfl
        · exact hidle
      | task st =>
        show BInv env W L peers ⟨if p.free W && p.runnable st then { p with sys := Sys.step env p.sys st } else p, rest, false⟩
        split
        · rename_i hc
          simp only [Bool.and_eq_true] at hc
          have hne : st ≠ .ctrlC := by rintro rfl; cases hc.2
          refine same (.task st) _ ?_ ((Proc.ctrlC_step env hne).trans h2) rfl rfl
          have : ((Boot.mk p rest false).whole.free W && (Boot.mk p rest false).whole.runnable st) = true := by
            rw [hfree hc.1, Bool.true_and]; exact hc.2
          show (if _ then _ else _) = _
          rw [if_pos this]
          rfl
        · exact hidle
      | stopListening l =>
        show BInv env W L peers ⟨if p.free W && p.sys.ctrlC then { p with listeners := p.listeners.set l false } else p, rest, false⟩
        rw [h2, Bool.and_false]
        exact hidle
      | messagingEnds =>
        show BInv env W L peers ⟨if p.free W && !p.sys.handlerAlive then { p with messagingUp := false } else p, rest, false⟩
        split
        · rename_i hc
          simp only [Bool.and_eq_true] at hc
          refine same .messagingEnds _ ?_ h2 rfl rfl
          have : ((Boot.mk p rest false).whole.free W && !(Boot.mk p rest false).whole.sys.handlerAlive) = true := by
            rw [hfree hc.1, Bool.true_and]; exact hc.2
          show (if _ then _ else _) = _
          rw [if_pos this]
          rfl
        · exact hidle
      | signal =>
        show BInv env W L peers (kill ⟨p, rest, false⟩)
        unfold kill
        split
        · exact hidle
        · exact ⟨fun _ => ⟨⟨qs, h1⟩, h2, h3, .inr (.inr rfl)⟩, fun h => by cases h⟩
      | main =>
        show BInv env W L peers ⟨p.stepMain, rest, false⟩
        unfold Proc.stepMain
        rcases h4 with hm | hm | hm <;> simp only [hm]
        · exact hidle
        · split
          · exact ⟨fun _ => ⟨⟨qs, h1⟩, h2, h3, .inr (.inr rfl)⟩, fun h => by cases h⟩
          · exact hidle
        · exact hidle

theorem binv_run (env : Env) (W : Nat) (peers : ConnId → Peer) (addrs : List String) (bs : List BStep) :
    BInv env W addrs.length peers (run env W ⟨Proc.start 0 peers, addrs, false⟩ bs) := by
  suffices ∀ b, BInv env W addrs.length peers b → BInv env W addrs.length peers (run env W b bs) from this _ (binv_launched env W peers addrs)
  induction bs with
  | nil => exact fun _ h => h
  | cons st bs ih => exact fun b h => ih _ (binv_step h st)

/-- Binding all addresses. -/
theorem bind_all (env : Env) (W : Nat) (addrs : List String) {p : Proc} (h : p.main = .serving) :
    run env W ⟨p, addrs, false⟩ (List.replicate addrs.length (.bind true))
      = ⟨{ p with listeners := p.listeners ++ List.replicate addrs.length true }, [], false⟩ := by
  induction addrs generalizing p with
  | nil => simp [run]
  | cons a addrs ih =>
    have h1 : (Boot.mk p (a :: addrs) false).step env W (.bind true) = ⟨{ p with listeners := p.listeners ++ [true] }, addrs, false⟩ := by
      simp only [step, stepBind, h, if_true]
    show run env W ((Boot.mk p (a :: addrs) false).step env W (.bind true)) (List.replicate addrs.length (.bind true)) = _
    rw [h1, ih (p := { p with listeners := p.listeners ++ [true] }) h]
    simp [List.replicate_succ]

theorem run_procs_ready (env : Env) (W : Nat) (p : Proc) (rest : List String) (qs : List PStep) :
    run env W ⟨p, rest, true⟩ (qs.map .proc) = ⟨Proc.run env W p qs, rest, true⟩ := by
  induction qs generalizing p with
  | nil => rfl
  | cons st qs ih =>
    have : (Boot.mk p rest true).step env W (.proc st) = ⟨Proc.step env W p st, rest, true⟩ := by cases st <;> rfl
    show run env W ((Boot.mk p rest true).step env W (.proc st)) (qs.map .proc) = _
    rw [this, ih]
    rfl

theorem run_procs (env : Env) (W : Nat) (p : Proc) (rest : List String) (qs : List PStep) (h : .signal ∉ qs) :
    run env W ⟨p, rest, false⟩ (qs.map .proc) = ⟨Proc.run env W p qs, rest, false⟩ := by
  induction qs generalizing p with
  | nil => rfl
  | cons st qs ih =>
    have hst : st ≠ .signal := fun e => h (by rw [e]; exact List.mem_cons_self)
    have : (Boot.mk p rest false).step env W (.proc st) = ⟨Proc.step env W p st, rest, false⟩ := by
      cases st <;> first | rfl | exact absurd rfl hst
    show run env W ((Boot.mk p rest false).step env W (.proc st)) (qs.map .proc) = _
    rw [this, ih _ fun h' => h (List.mem_cons_of_mem _ h')]
    rfl

theorem signal_asSteps {sched : List Step} (h : .ctrlC ∉ sched) : .signal ∉ sched.flatMap Proc.asSteps := by
  intro hm
  obtain ⟨st, h1, h2⟩ := List.mem_flatMap.mp hm
  cases st <;> simp [Proc.asSteps] at h2
  exact h h1

/-- Every execution of the broker on input that can be read to its end can take place before the second of several addresses is bound. -/
theorem half (env : Env) (W : Nat) (peers : ConnId → Peer) (hW : 0 < W) (a : String) (rest : List String) (sched : List Step)
    (hshort : ∀ st ∈ sched, ∀ c, st = .read c ∨ st = .write c → ¬ Spinning env (peers c))
    (hh : (Sys.run env (init peers) sched).handler ≠ .stopped) :
    ∃ bs p, run env W ⟨Proc.start 0 peers, a :: rest, false⟩ bs = ⟨p, rest, false⟩
      ∧ p.sys = (Sys.run env (init peers) sched).calm ∧ p.main = .serving ∧ p.spinning = 0 ∧ p.listeners = [true] := by
  have hcalm := Sys.calm_run env sched hh
  have hinit : (init peers).calm = init peers := rfl
  rw [hinit] at hcalm
  generalize hs' : sched.filter (fun st => st ≠ .ctrlC ∧ st ≠ .stop) = sched' at hcalm
  have hno : .ctrlC ∉ sched' := by rw [← hs']; simp
  have hshort' : ∀ st ∈ sched', ∀ c, st = .read c ∨ st = .write c → ¬ Spinning env (peers c) :=
    fun st hst => hshort st (by rw [← hs'] at hst; exact (List.mem_filter.mp hst).1)
  obtain ⟨r1, r2, r3, r4⟩ := Proc.realize env W 1 peers hW (by decide) sched' hshort'
  have hsig := signal_asSteps hno
  have hb : run env W ⟨Proc.start 0 peers, a :: rest, false⟩ [.bind true] = ⟨Proc.start 1 peers, rest, false⟩ := rfl
  refine ⟨[.bind true] ++ (sched'.flatMap Proc.asSteps).map .proc, _, ?_, r1.trans hcalm.symm, ?_, r4, r3⟩
  · rw [run_append, hb, run_procs env W _ _ _ hsig]
  · exact Classical.byContradiction fun hm => hsig (((C83_order env W 1 peers _).1).mp hm)

/-- The result of a launch. -/
theorem launch_eq {sv : StdVersion} {hs : Hashing} {env env' : Env} {peers : ConnId → Peer} {settings : Option Settings}
    {read : String → Option (List Char)} {b : Boot} (h : launch sv hs env peers settings read = some (env', b)) :
    ∃ s text f, settings = some s ∧ read s.passwordFile = some text ∧ FileIdentityManager.new sv text = some f
      ∧ env' = { env with auth := f.authenticate hs } ∧ b = ⟨Proc.start 0 peers, s.listenersTcp, false⟩ := by
  unfold launch at h
  split at h
  · cases h
  · rename_i s
    split at h
    · cases h
    · rename_i text ht
      split at h
      · cases h
      · rename_i f hf
        cases h
        exact ⟨s, text, f, rfl, ht, hf, rfl, rfl⟩

end Boot

end Ratel
