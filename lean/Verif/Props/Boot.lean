/-
C115–C119: from the configuration to the running broker.
-/
import Verif.Proofs.Boot
import Verif.Proofs.SysClose
import Verif.Props.Auth
import Verif.Props.Rules
import Verif.Spec.Boot

namespace Ratel

open Decoder Encoder Spec Sys

/-! ### C115 -/

/-- C115, what holds. A process that has announced it is ready has bound all the addresses of its configuration, and listens on all of
them until ctrl-c is pressed. Missing: that nobody is served before that (see below). -/
theorem C115_ready_partial (env : Env) (W : Nat) (peers : ConnId → Peer) (addrs : List String) (bs : List BStep)
    (h : (Boot.run env W ⟨Proc.start 0 peers, addrs, false⟩ bs).ready = true) :
    (Boot.run env W ⟨Proc.start 0 peers, addrs, false⟩ bs).rest = []
    ∧ (Boot.run env W ⟨Proc.start 0 peers, addrs, false⟩ bs).proc.listeners.length = addrs.length
    ∧ ((Boot.run env W ⟨Proc.start 0 peers, addrs, false⟩ bs).proc.main = .serving →
        (Boot.run env W ⟨Proc.start 0 peers, addrs, false⟩ bs).proc.listeners = List.replicate addrs.length true) := by
  obtain ⟨h1, qs, h2⟩ := (Boot.binv_run env W peers addrs bs).started h
  refine ⟨h1, ?_, fun hm => ?_⟩
  · rw [← h2]; exact (Proc.pinv_run env W addrs.length peers qs).listeners
  · rw [← h2] at hm ⊢
    obtain ⟨g1, g2, _⟩ := C83_order env W addrs.length peers qs
    exact g2 fun hs => g1.mpr hs hm

theorem Boot.lost_step (env : Env) (W : Nat) {b : Boot} (hr : b.ready = false) (hm : b.proc.main = .panicked ∨ b.proc.main = .exited false)
    (st : BStep) : (b.step env W st).ready = false ∧ ((b.step env W st).proc.main = .panicked ∨ (b.step env W st).proc.main = .exited false)
      ∧ (b.step env W st).proc.listeners.length = b.proc.listeners.length := by
  obtain ⟨p, rest, ready⟩ := b
  have hr : ready = false := hr
  subst hr
  have hm : p.main = .panicked ∨ p.main = .exited false := hm
  cases st with
  | bind ok =>
    have : (Boot.mk p rest false).step env W (.bind ok) = ⟨p, rest, false⟩ := by
      rcases hm with hm | hm <;> simp only [step, stepBind, hm]
    rw [this]; exact ⟨rfl, hm, rfl⟩
  | ready =>
    have : (Boot.mk p rest false).step env W .ready = ⟨p, rest, false⟩ := by
      rcases hm with hm | hm <;> simp only [step, stepReady, hm]
    rw [this]; exact ⟨rfl, hm, rfl⟩
  | proc st =>
    cases st with
    | signal =>
      have : (Boot.mk p rest false).step env W (.proc .signal) = ⟨{ p with main := .exited false }, rest, false⟩ := by
        rcases hm with hm | hm <;> simp [step, kill, hm]
        rw [← hm]
      rw [this]; exact ⟨rfl, .inr rfl, rfl⟩
    | main =>
      show false = false ∧ (p.stepMain.main = .panicked ∨ p.stepMain.main = .exited false) ∧ p.stepMain.listeners.length = p.listeners.length
      unfold Proc.stepMain
      rcases hm with hm | hm <;> simp only [hm]
      · split
        · simp
        · simp [hm]
      · simp
    | accept l c =>
      refine ⟨rfl, ?_⟩
      show ((if _ then _ else _ : Proc).main = .panicked ∨ (if _ then _ else _ : Proc).main = .exited false)
        ∧ (if _ then _ else _ : Proc).listeners.length = _
      split <;> exact ⟨hm, rfl⟩
    | task st =>
      refine ⟨rfl, ?_⟩
      show ((if _ then _ else _ : Proc).main = .panicked ∨ (if _ then _ else _ : Proc).main = .exited false)
        ∧ (if _ then _ else _ : Proc).listeners.length = _
      split <;> exact ⟨hm, rfl⟩
    | stopListening l =>
      refine ⟨rfl, ?_⟩
      show ((if _ then _ else _ : Proc).main = .panicked ∨ (if _ then _ else _ : Proc).main = .exited false)
        ∧ (if _ then _ else _ : Proc).listeners.length = _
      split
      · exact ⟨hm, List.length_set⟩
      · exact ⟨hm, rfl⟩
    | messagingEnds =>
      refine ⟨rfl, ?_⟩
      show ((if _ then _ else _ : Proc).main = .panicked ∨ (if _ then _ else _ : Proc).main = .exited false)
        ∧ (if _ then _ else _ : Proc).listeners.length = _
      split <;> exact ⟨hm, rfl⟩

theorem Boot.lost_run (env : Env) (W : Nat) {b : Boot} (hr : b.ready = false) (hm : b.proc.main = .panicked ∨ b.proc.main = .exited false)
    (bs : List BStep) : (b.run env W bs).ready = false ∧ ((b.run env W bs).proc.main = .panicked ∨ (b.run env W bs).proc.main = .exited false)
      ∧ (b.run env W bs).proc.listeners.length = b.proc.listeners.length := by
  induction bs generalizing b with
  | nil => exact ⟨hr, hm, rfl⟩
  | cons st bs ih =>
    obtain ⟨h1, h2, h3⟩ := Boot.lost_step env W hr hm st
    obtain ⟨g1, g2, g3⟩ := ih h1 h2
    exact ⟨g1, g2, g3.trans h3⟩

/-- C115, what holds: if an address cannot be bound, the process never announces that it is ready, binds no further address, and does
not end well; unless a read task spins it ends at once, whatever the other tasks are doing. Missing: that it had not served anybody. -/
theorem C115_failed_bind_partial (env : Env) (W : Nat) (b : Boot) (hr : b.ready = false)
    (hm : b.proc.main = .serving) (hrest : b.rest ≠ []) (bs : List BStep) :
    (b.run env W (.bind false :: bs)).ready = false
    ∧ ((b.run env W (.bind false :: bs)).proc.main = .panicked ∨ (b.run env W (.bind false :: bs)).proc.main = .exited false)
    ∧ (b.run env W (.bind false :: bs)).proc.listeners.length = b.proc.listeners.length
    ∧ (b.proc.spinning = 0 → (b.run env W [.bind false, .proc .main]).proc.main = .exited false) := by
  obtain ⟨p, rest, ready⟩ := b
  have hr : ready = false := hr
  subst hr
  have hm' : p.main = .serving := hm
  obtain ⟨a, rest, rfl⟩ := List.exists_cons_of_ne_nil hrest
  have hstep : (Boot.mk p (a :: rest) false).step env W (.bind false) = ⟨{ p with main := .panicked }, a :: rest, false⟩ := by
    simp [Boot.step, Boot.stepBind, hm']
  have hrun : ∀ bs, Boot.run env W ⟨p, a :: rest, false⟩ (.bind false :: bs) = Boot.run env W ⟨{ p with main := .panicked }, a :: rest, false⟩ bs := by
    intro bs
    rw [← hstep]; rfl
  rw [hrun, hrun]
  obtain ⟨h1, h2, h3⟩ := Boot.lost_run env W (b := ⟨{ p with main := .panicked }, a :: rest, false⟩) rfl (.inl rfl) bs
  refine ⟨h1, h2, h3, fun hs => ?_⟩
  have hs : p.spinning = 0 := hs
  have hs' : ({ p with main := .panicked } : Proc).spinning = 0 := hs
  show (if ({ p with main := .panicked } : Proc).spinning = 0 then _ else _ : Proc).main = _
  rw [if_pos hs']

/-- C115 is violated: with two or more addresses, whatever the broker can do, it can do before its start fails: every execution of the
broker on input that can be read to its end, up to a stop by ctrl-c, can take place before the second address turns out to be unusable and the process
ends. -/
theorem C115_served_first_fails (env : Env) (W : Nat) (peers : ConnId → Peer) (hW : 0 < W) (a₁ a₂ : String) (rest : List String)
    (sched : List Step) (hshort : ∀ st ∈ sched, ∀ c, st = .read c ∨ st = .write c → ¬ Spinning env (peers c))
    (hh : (Sys.run env (init peers) sched).handler ≠ .stopped) :
    ∃ bs, (Boot.run env W ⟨Proc.start 0 peers, a₁ :: a₂ :: rest, false⟩ bs).ready = false
      ∧ (Boot.run env W ⟨Proc.start 0 peers, a₁ :: a₂ :: rest, false⟩ bs).proc.main = .exited false
      ∧ (Boot.run env W ⟨Proc.start 0 peers, a₁ :: a₂ :: rest, false⟩ bs).proc.sys.conns = (Sys.run env (init peers) sched).conns
      ∧ (Boot.run env W ⟨Proc.start 0 peers, a₁ :: a₂ :: rest, false⟩ bs).proc.sys.log = (Sys.run env (init peers) sched).log := by
  obtain ⟨bs, p, h1, h2, h3, h4, _⟩ := Boot.half env W peers hW a₁ (a₂ :: rest) sched hshort hh
  have hsys : Boot.run env W ⟨p, a₂ :: rest, false⟩ [.bind false, .proc .main]
      = ⟨{ p with main := .exited false }, a₂ :: rest, false⟩ := by
    have e1 : (Boot.mk p (a₂ :: rest) false).step env W (.bind false) = ⟨{ p with main := .panicked }, a₂ :: rest, false⟩ := by
      simp [Boot.step, Boot.stepBind, h3]
    show ((Boot.mk p (a₂ :: rest) false).step env W (.bind false)).step env W (.proc .main) = _
    rw [e1]
    have hs' : ({ p with main := .panicked } : Proc).spinning = 0 := h4
    show Boot.mk (if ({ p with main := .panicked } : Proc).spinning = 0 then _ else _) _ _ = _
    rw [if_pos hs']
  refine ⟨bs ++ [.bind false, .proc .main], ?_⟩
  rw [Boot.run_append, h1, hsys]
  refine ⟨rfl, rfl, ?_, ?_⟩
  · show p.sys.conns = _
    rw [h2]; rfl
  · show p.sys.log = _
    rw [h2]; rfl

/-- C115 is violated: with two or more addresses, a connection to the first that sends a large PUBLISH makes the process stay for ever
when the second address cannot be bound, unless it is killed. -/
theorem C115_lingers_fails (env : Env) (W : Nat) (peers : ConnId → Peer) (hW : 0 < W) (hog : Hog (peers 0)) (a₁ a₂ : String)
    (rest : List String) :
    ∃ bs, (Boot.run env W ⟨Proc.start 0 peers, a₁ :: a₂ :: rest, false⟩ bs).proc.main = .panicked
      ∧ ∀ bs', .proc .signal ∉ bs' →
        (Boot.run env W ⟨Proc.start 0 peers, a₁ :: a₂ :: rest, false⟩ (bs ++ bs')).proc.main = .panicked := by
  have hb : Boot.run env W ⟨Proc.start 0 peers, a₁ :: a₂ :: rest, false⟩ [.bind true, .proc (.accept 0 0), .proc (.task (.read 0)), .bind false]
      = ⟨{ Proc.start 1 peers with accepted := [0], sys := Sys.step env (init peers) (.read 0), main := .panicked }, a₂ :: rest, false⟩ := by
    have h1 : Proc.free W (Proc.start 1 peers) = true := by simp [Proc.free, Proc.spinning, Proc.gone, Proc.start, hW]
    have e1 : Proc.step env W (Proc.start 1 peers) (.accept 0 0) = { Proc.start 1 peers with accepted := [0] } := by
      simp only [Proc.step, h1]; rfl
    have h2 : Proc.free W { Proc.start 1 peers with accepted := [0] } = true := by
      have : ((init peers).conns 0).phase = .first := rfl
      simp [Proc.free, Proc.spinning, Proc.gone, Proc.start, this, hW]
    have e2 : Proc.step env W { Proc.start 1 peers with accepted := [0] } (.task (.read 0))
        = { Proc.start 1 peers with accepted := [0], sys := Sys.step env (init peers) (.read 0) } := by
      simp only [Proc.step, h2]; rfl
    show (Boot.mk (Proc.step env W (Proc.step env W (Proc.start 1 peers) (.accept 0 0)) (.task (.read 0))) (a₂ :: rest) false).step env W (.bind false) = _
    rw [e1, e2]
    rfl
  have hstuck : ((Sys.step env (init peers) (.read 0)).conns 0).phase = .stuck := Proc.hog_spins env hog rfl rfl rfl
  refine ⟨[.bind true, .proc (.accept 0 0), .proc (.task (.read 0)), .bind false], by rw [hb], fun bs' hno => ?_⟩
  rw [Boot.run_append, hb]
  suffices ∀ b : Boot, b.ready = false → b.proc.main = .panicked → 0 ∈ b.proc.accepted → (b.proc.sys.conns 0).phase = .stuck →
      (b.run env W bs').proc.main = .panicked from this _ rfl rfl List.mem_cons_self hstuck
  induction bs' with
  | nil => exact fun b _ h _ _ => h
  | cons st bs' ih =>
    intro b hr hm ha hst
    have ih := ih fun h => hno (List.mem_cons_of_mem _ h)
    have hne : st ≠ .proc .signal := fun e => hno (e ▸ List.mem_cons_self)
    refine ih _ ((Boot.lost_step env W hr (.inl hm) st).1) ?_ ?_ ?_ <;>
    · obtain ⟨p, rest, ready⟩ := b
      have hr : ready = false := hr
      subst hr
      have hm : p.main = .panicked := hm
      have ha : 0 ∈ p.accepted := ha
      have hst : (p.sys.conns 0).phase = .stuck := hst
      have hspin : p.spinning ≠ 0 := by
        intro h
        have : (0 : ConnId) ∈ p.accepted.filter fun c => (p.sys.conns c).phase = .stuck :=
          List.mem_filter.mpr ⟨ha, by simpa using hst⟩
        rw [List.length_eq_zero_iff.mp h] at this
        cases this
      cases st with
      | bind ok => simp [Boot.step, Boot.stepBind, hm, ha, hst]
      | ready => simp [Boot.step, Boot.stepReady, hm, ha, hst]
      | proc st =>
        cases st with
        | signal => exact absurd rfl hne
        | main => simp [Boot.step, Proc.step, Proc.stepMain, hm, hspin, ha, hst]
        | accept l c =>
          simp only [Boot.step, Proc.step]
          split <;> simp [hm, ha, hst]
        | task st =>
          simp only [Boot.step, Proc.step]
          split
          · simp [hm, ha, Proc.stuck_stays env hst st]
          · simp [hm, ha, hst]
        | stopListening l =>
          simp only [Boot.step, Proc.step]
          split <;> simp [hm, ha, hst]
        | messagingEnds =>
          simp only [Boot.step, Proc.step]
          split <;> simp [hm, ha, hst]

/-- C115 is violated: with an empty list of addresses the broker announces that it is ready and never accepts anybody. -/
theorem C115_deaf_fails (env : Env) (W : Nat) (peers : ConnId → Peer) :
    (Boot.run env W ⟨Proc.start 0 peers, [], false⟩ [.ready]).ready = true
    ∧ ∀ bs, (Boot.run env W ⟨Proc.start 0 peers, [], false⟩ bs).proc.accepted = [] := by
  refine ⟨rfl, fun bs => ?_⟩
  suffices ∀ b : Boot, b.rest = [] → b.proc.listeners = [] → b.proc.accepted = [] → (b.run env W bs).proc.accepted = [] from
    this _ rfl rfl rfl
  induction bs with
  | nil => exact fun b _ _ h => h
  | cons st bs ih =>
    rintro ⟨p, rest, ready⟩ h1 h2 h3
    have h1 : rest = [] := h1
    subst h1
    have h2 : p.listeners = [] := h2
    have h3 : p.accepted = [] := h3
    suffices ((Boot.mk p [] ready).step env W st).rest = [] ∧ ((Boot.mk p [] ready).step env W st).proc.listeners = []
      ∧ ((Boot.mk p [] ready).step env W st).proc.accepted = [] from ih _ this.1 this.2.1 this.2.2
    cases st with
    | bind ok =>
      simp only [Boot.step, Boot.stepBind]
      split <;> simp_all
    | ready =>
      simp only [Boot.step, Boot.stepReady]
      split <;> simp_all
    | proc st =>
      cases st with
      | signal =>
        simp only [Boot.step]
        split
        · simp only [Proc.stepSignal]
          (repeat' split) <;> simp_all
        · simp only [Boot.kill]
          split <;> simp_all
      | main =>
        simp only [Boot.step, Proc.step, Proc.stepMain]
        (repeat' split) <;> simp_all
      | _ =>
        simp only [Boot.step, Proc.step]
        split <;> simp_all

/-- C84 is violated also while the broker starts: the main task does not wait for ctrl-c before all addresses are bound, so whatever the
broker is doing for the clients of the first ones, ctrl-c ends the process as it is. -/
theorem C84_starting_fails (env : Env) (W : Nat) (b : Boot) (hr : b.ready = false) (hm : ∀ ok, b.proc.main ≠ .exited ok) (bs : List BStep) :
    (b.run env W (.proc .signal :: bs)).proc.main = .exited false
    ∧ (b.run env W (.proc .signal :: bs)).proc.sys = b.proc.sys := by
  have h1 : b.step env W (.proc .signal) = { b with proc := { b.proc with main := .exited false } } := by
    show (if b.ready then _ else Boot.kill b) = _
    rw [hr]
    simp only [Bool.false_eq_true, if_false, Boot.kill]
    rw [hr]
  show (Boot.run env W (b.step env W (.proc .signal)) bs).proc.main = _ ∧ _
  have h2 : b.run env W (.proc .signal :: bs) = Boot.run env W (b.step env W (.proc .signal)) bs := rfl
  rw [h2, h1]
  suffices ∀ c : Boot, c.ready = false → c.proc.main = .exited false → c.proc.sys = b.proc.sys →
      (c.run env W bs).proc.main = .exited false ∧ (c.run env W bs).proc.sys = b.proc.sys from this _ hr rfl rfl
  clear h2
  induction bs with
  | nil => exact fun c _ h h' => ⟨h, h'⟩
  | cons st bs ih =>
    rintro ⟨p, rest, ready⟩ g1 g2 g3
    have g1 : ready = false := g1
    subst g1
    have g2 : p.main = .exited false := g2
    have g3 : p.sys = b.proc.sys := g3
    have hfree : p.free W = false := by simp [Proc.free, Proc.gone, g2]
    have hkeep : (Boot.mk p rest false).step env W st = ⟨p, rest, false⟩ := by
      cases st with
      | bind ok => simp only [Boot.step, Boot.stepBind, g2]
      | ready => simp only [Boot.step, Boot.stepReady, g2]
      | proc st =>
        cases st <;> simp [Boot.step, Boot.kill, Proc.step, Proc.stepMain, g2, hfree]
    show (Boot.run env W ((Boot.mk p rest false).step env W st) bs).proc.main = _ ∧ (Boot.run env W ((Boot.mk p rest false).step env W st) bs).proc.sys = _
    rw [hkeep]
    exact ih _ rfl g2 g3

/-! ### C116 -/

/-- C116. The broker gets as far as opening its first port exactly if its settings could be loaded, the password file they name could be
read, and each line of that file contains ':'; then it starts with nobody connected and the addresses of the settings to bind. -/
theorem C116_launch (sv : StdVersion) (hs : Hashing) (env : Env) (peers : ConnId → Peer) (settings : Option Settings)
    (read : String → Option (List Char)) :
    ((∃ env' b, Boot.launch sv hs env peers settings read = some (env', b)) ↔
      ∃ s text ls, settings = some s ∧ read s.passwordFile = some text ∧ FileLines sv text ls ∧ ∀ l ∈ ls, ':' ∈ l)
    ∧ ∀ env' b, Boot.launch sv hs env peers settings read = some (env', b) →
      ∃ s, settings = some s ∧ b.rest = s.listenersTcp ∧ b.proc.listeners = [] ∧ b.proc.accepted = [] ∧ b.proc.sys = init peers
        ∧ b.ready = false ∧ b.proc.main = .serving := by
  refine ⟨⟨?_, ?_⟩, ?_⟩
  · rintro ⟨env', b, h⟩
    obtain ⟨s, text, f, h1, h2, h3, _⟩ := Boot.launch_eq h
    obtain ⟨ls, hl, _⟩ := C56_lines sv text
    exact ⟨s, text, ls, h1, h2, hl, (C56_accepted sv text ls hl).mp (by rw [h3]; rfl)⟩
  · rintro ⟨s, text, ls, h1, h2, hl, hc⟩
    obtain ⟨f, hf⟩ := Option.isSome_iff_exists.mp ((C56_accepted sv text ls hl).mpr hc)
    exact ⟨_, _, by simp only [Boot.launch, h1, h2, hf]; rfl⟩
  · intro env' b h
    obtain ⟨s, text, f, h1, h2, h3, _, rfl⟩ := Boot.launch_eq h
    exact ⟨s, h1, rfl, rfl, rfl, rfl, rfl, rfl⟩

/-! ### C117 -/

/-- C117. Whatever happens to a broker from its start on, what its connections see is an execution of the broker of C51; once it is
ready, it is in a state that the process of C82 to C87 with all its listeners can be in; and every such state can be reached. -/
theorem C117_boot_is_process (env : Env) (W : Nat) (peers : ConnId → Peer) (addrs : List String) :
    (∀ bs, ∃ sched, (Boot.run env W ⟨Proc.start 0 peers, addrs, false⟩ bs).proc.sys = Sys.run env (init peers) sched)
    ∧ (∀ bs, (Boot.run env W ⟨Proc.start 0 peers, addrs, false⟩ bs).ready = true →
        ∃ ps, (Boot.run env W ⟨Proc.start 0 peers, addrs, false⟩ bs).proc = Proc.run env W (Proc.start addrs.length peers) ps)
    ∧ ∀ ps, ∃ bs, (Boot.run env W ⟨Proc.start 0 peers, addrs, false⟩ bs).ready = true
        ∧ (Boot.run env W ⟨Proc.start 0 peers, addrs, false⟩ bs).proc = Proc.run env W (Proc.start addrs.length peers) ps := by
  refine ⟨fun bs => ?_, fun bs h => ?_, fun ps => ?_⟩
  · have hb := Boot.binv_run env W peers addrs bs
    cases hr : (Boot.run env W ⟨Proc.start 0 peers, addrs, false⟩ bs).ready with
    | true =>
      obtain ⟨_, qs, h⟩ := hb.started hr
      rw [← h]
      exact C82_process_is_broker env W addrs.length peers qs
    | false =>
      obtain ⟨⟨qs, h⟩, _⟩ := hb.starting hr
      obtain ⟨sched, hs⟩ := C82_process_is_broker env W addrs.length peers qs
      rw [h] at hs
      exact ⟨sched, hs⟩
  · obtain ⟨_, qs, hq⟩ := (Boot.binv_run env W peers addrs bs).started h
    exact ⟨qs, hq.symm⟩
  · have hrun : Boot.run env W ⟨Proc.start 0 peers, addrs, false⟩ (List.replicate addrs.length (.bind true) ++ ([.ready] ++ ps.map .proc))
        = ⟨Proc.run env W (Proc.start addrs.length peers) ps, [], true⟩ := by
      rw [Boot.run_append, Boot.bind_all env W addrs rfl, Boot.run_append]
      have : Boot.run env W ⟨{ Proc.start 0 peers with listeners := (Proc.start 0 peers).listeners ++ List.replicate addrs.length true }, [], false⟩
          [.ready] = ⟨Proc.start addrs.length peers, [], true⟩ := rfl
      rw [this, Boot.run_procs_ready]
    exact ⟨_, by rw [hrun], by rw [hrun]⟩

/-! ### C118 -/

theorem login_file (sv : StdVersion) (hs : Hashing) (text : List Char) (ls : List (List Char)) (h : FileLines sv text ls)
    (f : FileIdentityManager) (hf : FileIdentityManager.new sv text = some f) (p : ConnectPacket) :
    (login (f.authenticate hs) p = .accepted ↔ Admits hs ls p)
    ∧ (login (f.authenticate hs) p = .refused ↔ ¬ Admits hs ls p ∧ p.password.isSome = true) := by
  unfold login Admits
  cases hu : p.userName with
  | none => simp
  | some u =>
    cases hp : p.password with
    | none => simp
    | some pw =>
      have key := C57_success sv hs text ls h f hf u pw
      have key' : (∃ user password, some u = some user ∧ some pw = some password ∧ ∃ cred : String, CredentialIn ls user.toList cred.toList
          ∧ ∃ hash, hs.parse cred = some hash ∧ hs.verify (strBytes password) hash = true)
          ↔ f.authenticate hs u pw = .ok () := by
        rw [key]
        constructor
        · rintro ⟨_, _, h1, h2, h3⟩
          cases h1; cases h2
          exact h3
        · exact fun h => ⟨u, pw, rfl, rfl, h⟩
      simp only [key']
      cases ha : f.authenticate hs u pw with
      | ok x => cases x; simp
      | error e => simp

/-- C118. From the start of the process on, whoever is sent a CONNACK had sent a CONNECT first, and is accepted exactly if the lines of the
password file admit that CONNECT. -/
theorem C118_access (sv : StdVersion) (hs : Hashing) (env env' : Env) (peers : ConnId → Peer) (s : Settings)
    (read : String → Option (List Char)) (text : List Char) (ls : List (List Char)) (b : Boot) (W : Nat)
    (hl : Boot.launch sv hs env peers (some s) read = some (env', b)) (hr : read s.passwordFile = some text) (hf : FileLines sv text ls)
    (bs : List BStep) (d : ConnId) (a : ConnAckPacket)
    (ha : .controlPacket (.connAck a) ∈ ((b.run env' W bs).proc.sys.conns d).delivered) :
    ∃ p ps, Decodes env.profile (peers d).segs.flatten (peers d).fin (.connect p :: ps)
      ∧ ((a = ⟨false, .accepted⟩ ∧ Admits hs ls p) ∨ (a = ⟨false, .notAuthorized⟩ ∧ ¬ Admits hs ls p)) := by
  obtain ⟨s', text', f, h1, h2, h3, rfl, rfl⟩ := Boot.launch_eq hl
  cases h1
  rw [hr] at h2
  cases h2
  obtain ⟨sched, hsched⟩ := (C117_boot_is_process { env with auth := f.authenticate hs } W peers s.listenersTcp).1 bs
  rw [hsched] at ha
  have hinv := inv_run { env with auth := f.authenticate hs } peers sched
  obtain ⟨pre, ev, post, bk, he, _, hsend⟩ := outputs_mem ((hinv.serves.delivered d).subset ha)
  have hord := reads_orderly_served hinv.reads
  have hmem : ev ∈ (run { env with auth := f.authenticate hs } (init peers) sched).served := by rw [he]; simp
  have hlog := login_file sv hs text ls hf f h3
  cases hsend with
  | accepted p addr hlogin =>
    obtain ⟨q, ps, hq, rfl⟩ := orderly_connect hord hmem
    rw [login_id] at hlogin
    exact ⟨q, ps, hq, .inl ⟨rfl, (hlog q).1.mp hlogin⟩⟩
  | refused p addr hlogin =>
    obtain ⟨q, ps, hq, rfl⟩ := orderly_connect hord hmem
    rw [login_id] at hlogin
    exact ⟨q, ps, hq, .inr ⟨rfl, ((hlog q).2.mp hlogin).1⟩⟩

/-! ### C119 -/

/-- C119 restricted like C59: after the tool has set a password, the broker starts with the resulting file, and a client that connects with
that user and password can be accepted. Missing: the cases in which the tool damages the file (C59). -/
theorem C119_set_password_partial (sv : StdVersion) (ci : Char → Char → Bool) (hci : CaseOk ci) (hs : Hashing) (es : List Entry)
    (h : Ratel.WellFormed es) (user hash : List Char) (password : String) (hok : (Entry.mk user hash).Ok) (hne : NoneEndsLike ci user es)
    (parsed : hs.Hash) (hp : hs.parse (String.ofList hash) = some parsed) (hv : hs.verify (strBytes password) parsed = true)
    (env : Env) (W : Nat) (hW : 0 < W) (s : Settings) (hadd : s.listenersTcp ≠ []) (read : String → Option (List Char))
    (hread : read s.passwordFile = some (Passwd.run ci user (.set hash) (fileOf es)))
    (peers : ConnId → Peer) (hshort : ∀ c, (peers c).segs.flatten.length < 4096)
    (c : Connect) (hu : c.userName = some (String.ofList user)) (hpw : c.password = some password) (hsolo : Solo peers [.connect c]) :
    ∃ env' b bs, Boot.launch sv hs env peers (some s) read = some (env', b) ∧ (b.run env' W bs).ready = true
      ∧ ((b.run env' W bs).proc.sys.conns 0).delivered = [.controlPacket (.connAck ⟨false, .accepted⟩)] := by
  obtain ⟨f, hf, hauth⟩ := C59_set_works_partial sv ci hci hs es h user hash password hok hne parsed hp hv
  refine ⟨{ env with auth := f.authenticate hs }, ⟨Proc.start 0 peers, s.listenersTcp, false⟩, ?_⟩
  have hout : ∀ d, Broker.start.outputs (f.authenticate hs) (eventsOf (peers 0) 0 ([.connect c].map meaning)) d
      = if d = 0 then [.controlPacket (.connAck ⟨false, .accepted⟩)] else [] := by
    intro d
    simp [meaning, eventsOf, Broker.outputs, Broker.step, login, hu, hpw, hauth, to]
  obtain ⟨sched, _, _, h3⟩ := solo_login { env with auth := f.authenticate hs } hsolo (fun c' hc' _ => by
    simp at hc'; rw [hc', hpw]; rfl) (fun d => by rw [hout]; split <;> simp)
  obtain ⟨ps, hps⟩ := C82_process_realizes { env with auth := f.authenticate hs } W s.listenersTcp.length peers hW
    (List.length_pos_iff.mpr hadd) sched fun _ _ c _ => not_spinning (hshort c)
  obtain ⟨bs, h1, h2⟩ := (C117_boot_is_process { env with auth := f.authenticate hs } W peers s.listenersTcp).2.2 ps
  refine ⟨bs, by simp only [Boot.launch, hread, hf], h1, ?_⟩
  rw [h2, hps, h3, hout, if_pos rfl]

/-- C119 restricted like C61: after the tool has deleted a user, the broker starts with the resulting file, and never accepts a client that
connects as that user. Missing: the cases in which the tool damages the file (C61). -/
theorem C119_delete_user_partial (sv : StdVersion) (ci : Char → Char → Bool) (hci : CaseOk ci) (hs : Hashing) (es : List Entry)
    (h : Ratel.WellFormed es) (user : List Char) (hu : ':' ∉ user) (hn : '\n' ∉ user) (hne : NoneEndsLike ci user es)
    (env : Env) (W : Nat) (s : Settings) (read : String → Option (List Char))
    (hread : read s.passwordFile = some (Passwd.run ci user .delete (fileOf es))) (peers : ConnId → Peer) :
    ∃ env' b, Boot.launch sv hs env peers (some s) read = some (env', b)
      ∧ ∀ bs d p, Decodes env.profile (peers d).segs.flatten (peers d).fin [.connect p] → p.userName = some (String.ofList user) →
        ∀ a, .controlPacket (.connAck a) ∈ ((b.run env' W bs).proc.sys.conns d).delivered → a = ⟨false, .notAuthorized⟩ := by
  obtain ⟨_, f, hf, hl⟩ := C61_delete_works_partial sv ci hci es h user hu hn hne
  have hlaunch : Boot.launch sv hs env peers (some s) read
      = some ({ env with auth := f.authenticate hs }, ⟨Proc.start 0 peers, s.listenersTcp, false⟩) := by
    simp only [Boot.launch, hread, hf]
  refine ⟨_, _, hlaunch, fun bs d p hp hpu a ha => ?_⟩
  obtain ⟨ls, hls, _⟩ := C56_lines sv (Passwd.run ci user .delete (fileOf es))
  obtain ⟨q, ps, hq, hor⟩ := C118_access sv hs env _ peers s read _ ls _ W hlaunch hread hls bs d a ha
  have := Decodes.head hq hp
  cases this
  rcases hor with ⟨_, hadm⟩ | ⟨h, _⟩
  · rcases hadm with hnone | ⟨u, pw, hu', _, cred, hcred, _⟩
    · rw [hpu] at hnone; cases hnone
    · rw [hpu] at hu'
      cases hu'
      rw [← C56_credential sv _ ls hls f hf] at hcred
      have := (hl user cred.toList).mp (by rw [String.ofList_toList]; exact hcred)
      exact absurd rfl this.1
  · exact h

/-- C119 is violated: the single user of the file is `rebob`; after setting the password of `bob` the broker starts and never accepts
`bob`, with whatever password. -/
theorem C119_set_password_fails (sv : StdVersion) (hs : Hashing) (env : Env) (W : Nat) (s : Settings) (read : String → Option (List Char))
    (hread : read s.passwordFile = some (Passwd.run asciiCase "bob".toList (.set "2".toList) (fileOf rebob))) (peers : ConnId → Peer) :
    ∃ env' b, Boot.launch sv hs env peers (some s) read = some (env', b)
      ∧ ∀ bs d p, Decodes env.profile (peers d).segs.flatten (peers d).fin [.connect p] → p.userName = some "bob" →
        ∀ a, .controlPacket (.connAck a) ∈ ((b.run env' W bs).proc.sys.conns d).delivered → a = ⟨false, .notAuthorized⟩ := by
  rw [rebob_run.1] at hread
  have hls : FileLines sv "rebob:2\n".toList ["rebob:2".toList] :=
    .line "rebob:2".toList "rebob:2".toList [] [] (by decide +kernel) (.inr ⟨rfl, fun x hx => by
      have := congrArg List.getLast? hx
      simp at this⟩) .empty
  obtain ⟨env', b, hlaunch⟩ := (C116_launch sv hs env peers (some s) read).1.mpr
    ⟨s, _, _, rfl, hread, hls, by decide +kernel⟩
  refine ⟨env', b, hlaunch, fun bs d p hp hpu a ha => ?_⟩
  obtain ⟨q, ps, hq, hor⟩ := C118_access sv hs env _ peers s read _ _ _ W hlaunch hread hls bs d a ha
  have := Decodes.head hq hp
  cases this
  rcases hor with ⟨_, hadm⟩ | ⟨h, _⟩
  · rcases hadm with hnone | ⟨u, pw, hu', _, cred, ⟨pre, line, post, he, hg, _⟩, _⟩
    · rw [hpu] at hnone; cases hnone
    · rw [hpu] at hu'
      cases hu'
      have hline : line = "rebob:2".toList := by
        have : line ∈ ["rebob:2".toList] := by rw [he]; simp
        simpa using this
      have h2 := hg.2
      rw [hline] at h2
      have := congrArg List.head? h2
      simp at this
  · exact h

/-! ### Examples -/

/-- A configuration with two addresses. -/
def twoPorts : Settings := ⟨["127.0.0.1:1883", "127.0.0.1:1884"], "/etc/ratelmq/passwords"⟩

/-- A file system with one file. -/
def onlyFile (name : String) (text : List Char) : String → Option (List Char) := fun n => if n = name then some text else none

-- C115: the second address is taken
example (W : Nat) : (Boot.run exampleEnv W ⟨Proc.start 0 examplePeers, twoPorts.listenersTcp, false⟩ [.bind true, .bind false, .proc .main]).proc.main
    = .exited false :=
  (C115_failed_bind_partial exampleEnv W (Boot.run exampleEnv W ⟨Proc.start 0 examplePeers, twoPorts.listenersTcp, false⟩ [.bind true])
    rfl rfl (by simp [Boot.run, twoPorts, Boot.step, Boot.stepBind, Proc.start]) []).2.2.2 rfl

-- C115: all goes well
example (W : Nat) : (Boot.run exampleEnv W ⟨Proc.start 0 examplePeers, twoPorts.listenersTcp, false⟩ [.bind true, .bind true, .ready]).ready = true := rfl

-- C115: a client was accepted, its CONNACK sent, when the start failed
example : ∃ bs, (Boot.run exampleEnv 4 ⟨Proc.start 0 (soloPeers [hello "c"]), twoPorts.listenersTcp, false⟩ bs).proc.main = .exited false
    ∧ ((Boot.run exampleEnv 4 ⟨Proc.start 0 (soloPeers [hello "c"]), twoPorts.listenersTcp, false⟩ bs).proc.sys.conns 0).delivered
      = [.controlPacket (.connAck ⟨false, .accepted⟩)] := by
  have hsolo : Solo (soloPeers [hello "c"]) [hello "c"] := by
    refine ⟨by simp [soloPeers], fun c hc => ?_, by decide +kernel⟩
    rw [List.mem_singleton] at hc
    subst hc
    refine ⟨⟨?_, ?_, by simp, by simp, by simp⟩, rfl⟩
    · show (utf8 "MQTT").length < 65536; decide +kernel
    · show (utf8 "c").length < 65536; decide +kernel
  have hout : ∀ d, Broker.start.outputs exampleEnv.auth (eventsOf (soloPeers [hello "c"] 0) 0 ([hello "c"].map meaning)) d
      = if d = 0 then [.controlPacket (.connAck ⟨false, .accepted⟩)] else [] := by
    intro d
    simp [hello, meaning, eventsOf, Broker.outputs, Broker.step, login, to]
  obtain ⟨sched, h1, _, h3⟩ := solo exampleEnv hsolo (fun c hc => by
    rw [List.mem_singleton] at hc; cases hc; rfl) (fun d => by rw [hout]; split <;> simp)
  have hshort : ∀ c, (soloPeers [hello "c"] c).segs.flatten.length < 4096 := by
    intro c
    have := hsolo.short
    by_cases hc : c = 0
    · simp [soloPeers, hc, this]
    · simp [soloPeers, hc]
  obtain ⟨bs, _, g1, g2, _⟩ := C115_served_first_fails exampleEnv 4 (soloPeers [hello "c"]) (by decide) "127.0.0.1:1883" "127.0.0.1:1884" []
    sched (fun _ _ c _ => not_spinning (hshort c)) (by rw [h1]; simp)
  refine ⟨bs, g1, ?_⟩
  show ((Boot.run exampleEnv 4 ⟨Proc.start 0 (soloPeers [hello "c"]), ["127.0.0.1:1883", "127.0.0.1:1884"], false⟩ bs).proc.sys.conns 0).delivered = _
  rw [g2, h3, hout, if_pos rfl]

-- C116: a file with two users; an empty line makes the broker refuse to start
example (sv : StdVersion) : (Boot.launch sv plainHashing exampleEnv examplePeers (some twoPorts)
    (onlyFile "/etc/ratelmq/passwords" "ann:1\nbob:2\n".toList)).isSome = true := by cases sv with | mk b => cases b <;> rfl

example (sv : StdVersion) : (Boot.launch sv plainHashing exampleEnv examplePeers (some twoPorts)
    (onlyFile "/etc/ratelmq/passwords" "ann:1\n\nbob:2\n".toList)).isSome = false := by cases sv with | mk b => cases b <;> rfl

example (sv : StdVersion) : (Boot.launch sv plainHashing exampleEnv examplePeers (some twoPorts)
    (onlyFile "/etc/passwords" "ann:1\n".toList)).isSome = false := rfl

/-- Ann's CONNECT. -/
def annConnects (password : String) : Connect := ⟨"MQTT", 4, true, 60, "c", none, some "ann", some password⟩

theorem annConnects_solo : Solo (soloPeers [.connect (annConnects "1")]) [.connect (annConnects "1")] := by
  refine ⟨by simp [soloPeers], fun c hc => ?_, by decide +kernel⟩
  rw [List.mem_singleton] at hc
  subst hc
  refine ⟨⟨?_, ?_, ?_, ?_, by simp [annConnects]⟩, rfl⟩
  · show (utf8 "MQTT").length < 65536; decide +kernel
  · show (utf8 "c").length < 65536; decide +kernel
  · simp only [annConnects, Option.mem_def, Option.some.injEq, forall_eq']
    show (utf8 "ann").length < 65536; decide +kernel
  · simp only [annConnects, Option.mem_def, Option.some.injEq, forall_eq']
    show (utf8 "1").length < 65536; decide +kernel

-- C119: the first user of a fresh password file
example (sv : StdVersion) : ∃ env' b bs, Boot.launch sv plainHashing exampleEnv (soloPeers [.connect (annConnects "1")]) (some twoPorts)
      (onlyFile "/etc/ratelmq/passwords" (Passwd.run asciiCase "ann".toList (.set "1".toList) (fileOf []))) = some (env', b)
    ∧ (b.run env' 4 bs).ready = true
    ∧ ((b.run env' 4 bs).proc.sys.conns 0).delivered = [.controlPacket (.connAck ⟨false, .accepted⟩)] := by
  refine C119_set_password_partial sv asciiCase asciiCase_ok plainHashing [] ⟨by simp, by simp⟩ "ann".toList "1".toList "1"
    ⟨by decide +kernel, by decide +kernel, by decide +kernel, by decide +kernel, fun x hx => by
      have := congrArg List.getLast? hx
      simp at this⟩ (fun e he => by cases he) (String.ofList "1".toList) rfl (by decide +kernel) exampleEnv 4 (by decide) twoPorts
    (by simp [twoPorts]) _ (by simp [onlyFile, twoPorts]) _ ?_ (annConnects "1") (by decide +kernel) rfl annConnects_solo
  intro c
  have := annConnects_solo.short
  by_cases hc : c = 0
  · simp [soloPeers, hc, this]
  · simp [soloPeers, hc]

-- C119: the only user is deleted
example (sv : StdVersion) : ∃ env' b, Boot.launch sv plainHashing exampleEnv (soloPeers [.connect (annConnects "1")]) (some twoPorts)
      (onlyFile "/etc/ratelmq/passwords" (Passwd.run asciiCase "ann".toList .delete (fileOf [⟨"ann".toList, "1".toList⟩]))) = some (env', b)
    ∧ ∀ bs a, .controlPacket (.connAck a) ∈ ((b.run env' 4 bs).proc.sys.conns 0).delivered → a = ⟨false, .notAuthorized⟩ := by
  obtain ⟨env', b, h1, h2⟩ := C119_delete_user_partial sv asciiCase asciiCase_ok plainHashing [⟨"ann".toList, "1".toList⟩]
    ⟨fun e he => by
      rw [List.mem_singleton] at he
      subst he
      exact ⟨by decide +kernel, by decide +kernel, by decide +kernel, by decide +kernel, fun x hx => by
        have := congrArg List.getLast? hx
        simp at this⟩, by simp⟩ "ann".toList (by decide +kernel) (by decide +kernel)
    (fun e he hne => by rw [List.mem_singleton] at he; subst he; exact absurd rfl hne) exampleEnv 4 twoPorts
    (onlyFile "/etc/ratelmq/passwords" (Passwd.run asciiCase "ann".toList .delete (fileOf [⟨"ann".toList, "1".toList⟩])))
    (by simp [onlyFile, twoPorts]) (soloPeers [.connect (annConnects "1")])
  refine ⟨env', b, h1, fun bs a => h2 bs 0 ⟨.mqtt3, "c", 60, true, none, some "ann", some "1"⟩ ?_ (by decide +kernel) a⟩
  have hsend : Sendable [.connect (annConnects "1")] := by
    intro c hc
    refine ⟨(annConnects_solo.legal c hc).1, (annConnects_solo.legal c hc).2, ?_⟩
    rw [List.mem_singleton] at hc
    subst hc
    decide +kernel
  have := decodes_client exampleEnv.profile .eof _ hsend
  simpa [soloPeers, meaning, annConnects] using this

-- C115: the process stays although its start has failed
example : ∃ bs, ∀ bs', .proc .signal ∉ bs' →
    (Boot.run exampleEnv 4 ⟨Proc.start 0 fun _ => hogPeer, twoPorts.listenersTcp, false⟩ (bs ++ bs')).proc.main = .panicked :=
  let ⟨bs, _, h⟩ := C115_lingers_fails exampleEnv 4 (fun _ => hogPeer) (by decide) hogPeer_hog "127.0.0.1:1883" "127.0.0.1:1884" []
  ⟨bs, h⟩

end Ratel
