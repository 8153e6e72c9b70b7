/-
C134: nobody is shut out from the packet handler. `Fifo` is the broker with the waiting list of the channel to the packet handler.
-/
import Verif.Proofs.Waiting
import Verif.Props.Rounds

namespace Ratel

open Decoder Encoder Spec

/-! ### C134 -/

/-- C134. The waiting list decides who gets a free place, but not what can happen: the states the broker can reach are the same as if
free places went to anybody. -/
theorem C134_same_states (env : Env) (peers : ConnId → Sys.Peer) (s : Sys) :
    (∃ sched, (Fifo.run env (Fifo.init peers) sched).sys = s) ↔ ∃ sched, Sys.run env (Sys.init peers) sched = s := by
  constructor
  · rintro ⟨sched, rfl⟩
    obtain ⟨sched', _, h⟩ := Fifo.sys_run env peers sched
    exact ⟨sched', h.symm⟩
  · rintro ⟨sched, rfl⟩
    obtain ⟨sched', _, h⟩ := Fifo.run_sys env peers sched
    exact ⟨sched', h⟩

/-- C134. Let the read task of connection `c` have a packet to hand to the packet handler, and let it have a turn. Once the handler has
taken more events than there were read tasks waiting then, the packet is in the channel after the next turn of `c` at the latest, however
many packets the others bring meanwhile; and at most 31 packets that the handler has not taken yet are before it. -/
theorem C134_not_shut_out (env : Env) (peers : ConnId → Sys.Peer) (sched between : List Step) (c : ConnId) (ev : ClientEvent)
    (ho : ((Fifo.run env (Fifo.init peers) sched).sys.conns c).outbox = some ev)
    (ha : (Fifo.run env (Fifo.init peers) (sched ++ .read c :: between)).sys.handlerAlive = true)
    (hmany : (Fifo.run env (Fifo.init peers) sched).sys.log.length + (Fifo.run env (Fifo.init peers) sched).waiting.length
      < (Fifo.run env (Fifo.init peers) (sched ++ .read c :: between)).sys.log.length) :
    ∃ before, (Fifo.run env (Fifo.init peers) sched).sys.log.map Prod.fst ++ (Fifo.run env (Fifo.init peers) sched).sys.events <+: before
      ∧ before ++ [ev] <+: (Fifo.run env (Fifo.init peers) (sched ++ .read c :: between ++ [.read c])).sys.log.map Prod.fst
          ++ (Fifo.run env (Fifo.init peers) (sched ++ .read c :: between ++ [.read c])).sys.events
      ∧ before.length ≤ (Fifo.run env (Fifo.init peers) (sched ++ .read c :: between)).sys.log.length + 31 := by
  have hg := Fifo.good_run env peers sched
  have hg' := Fifo.good_run env peers (sched ++ .read c :: between)
  have hrun : Fifo.run env (Fifo.init peers) (sched ++ .read c :: between)
      = Fifo.run env (Fifo.step env (Fifo.run env (Fifo.init peers) sched) (.read c)) between := by
    rw [Fifo.run_append, Fifo.run_cons]
  have halive := ha
  rw [hrun] at halive
  have h1 := Fifo.alive_run between halive
  have h0 := Fifo.alive_does (Fifo.does_step env _ (.read c)) h1
  obtain ⟨p, hp, hw⟩ := Fifo.where_asked (env := env) hg ho h0
  have hw' := Fifo.where_run (Fifo.good_does hg (Fifo.does_step env _ (.read c))) between halive hw
  rw [← hrun] at hw'
  have := Fifo.where_turn (env := env) hg' ha hw' (by omega)
  rw [Fifo.run_append env _ (sched ++ .read c :: between)]
  exact this

/-- C134. In particular once the handler has taken more events than there are connections. -/
theorem C134_connections (env : Env) (peers : ConnId → Sys.Peer) (N : Nat) (sched between : List Step) (c : ConnId) (ev : ClientEvent)
    (hN : ReadsBelow N sched) (ho : ((Fifo.run env (Fifo.init peers) sched).sys.conns c).outbox = some ev)
    (ha : (Fifo.run env (Fifo.init peers) (sched ++ .read c :: between)).sys.handlerAlive = true)
    (hmany : (Fifo.run env (Fifo.init peers) sched).sys.log.length + N
      < (Fifo.run env (Fifo.init peers) (sched ++ .read c :: between)).sys.log.length) :
    ev ∈ (Fifo.run env (Fifo.init peers) (sched ++ .read c :: between ++ [.read c])).sys.log.map Prod.fst
      ++ (Fifo.run env (Fifo.init peers) (sched ++ .read c :: between ++ [.read c])).sys.events := by
  have := Fifo.waiting_few env peers hN
  obtain ⟨before, _, h, _⟩ := C134_not_shut_out env peers sched between c ev ho ha (by omega)
  exact h.subset (by simp)

/-- Clients for the example: each says hello. -/
def helloPeers : ConnId → Sys.Peer := fun _ => ⟨someAddr, "u", [clientBytes [hello "s"]], .eof, []⟩

/-- The first read steps of the first `n` connections: each decodes its CONNECT and hands it on. -/
def helloSteps (n : Nat) : List Step := (List.range n).flatMap fun c => [.read c, .read c]

/-- The CONNECT. -/
def helloEvent (c : ConnId) : ClientEvent := .connected ⟨.mqtt3, "s", 60, true, none, none, none⟩ someAddr c

/-- A connection that has not been read from speaks. -/
theorem hello_speaks (env : Env) (c : ConnId) : ∃ k', Sys.Speaks env c (helloPeers c).conn (helloEvent c) k' := by
  have hs : Sendable [hello "s"] := by
    intro x hx
    simp only [List.mem_cons, List.not_mem_nil, or_false] at hx
    subst hx
    exact Sys.hello_sendable "s" (by unfold Fits; decide +kernel) (by decide +kernel)
  obtain ⟨rd, h, _⟩ := Sys.next_hello (env := env) (c := c) (k := (helloPeers c).conn) (id := "s") (by decide)
    (Sys.next_new (helloPeers c) [hello "s"] (by simp [helloPeers]) hs (by decide +kernel)) rfl
  exact ⟨_, h⟩

/-- The first 32 fill the channel. -/
theorem hello_fill (env : Env) (n : Nat) (hn : n ≤ 32) :
    ∃ conns, Fifo.run env (Fifo.init helloPeers) (helloSteps n)
        = ⟨⟨conns, (List.range n).map helloEvent, .idle, .new, false, []⟩, 32 - n, [], []⟩
      ∧ ∀ c : Nat, n ≤ c → conns c = (helloPeers c).conn := by
  induction n with
  | zero => exact ⟨_, rfl, fun _ _ => rfl⟩
  | succ n ih =>
    obtain ⟨conns, h1, h2⟩ := ih (by omega)
    obtain ⟨k', ho, ho', hr⟩ := hello_speaks env n
    rw [← h2 n (Nat.le_refl n)] at ho hr
    refine ⟨fun c => if c = n then k' else conns c, ?_, fun c hc => ?_⟩
    · unfold helloSteps
      rw [List.range_succ, List.flatMap_append, Fifo.run_append]
      show Fifo.run env (Fifo.run env _ (helloSteps n)) _ = _
      rw [h1]
      simp only [List.flatMap_cons, List.flatMap_nil, List.append_nil]
      rw [Fifo.run_cons, Fifo.run_cons]
      have e1 : Fifo.step env ⟨⟨conns, (List.range n).map helloEvent, .idle, .new, false, []⟩, 32 - n, [], []⟩ (.read n)
          = ⟨Sys.setConn ⟨conns, (List.range n).map helloEvent, .idle, .new, false, []⟩ n { k' with outbox := some (helloEvent n) }, 32 - n, [], []⟩ := by
        show Fifo.stepRead env _ n = _
        unfold Fifo.stepRead
        simp only [ho]
        unfold Sys.stepRead
        simp only [ho, hr]
      rw [e1]
      obtain ⟨m, hm⟩ : ∃ m, 32 - n = m + 1 := ⟨31 - n, by omega⟩
      have e2 : 32 - (n + 1) = m := by omega
      rw [hm, e2]
      show Fifo.stepRead env _ n = _
      unfold Fifo.stepRead
      simp only [Sys.setConn_self, Sys.handlerAlive, ↓reduceIte, List.not_mem_nil]
      unfold Fifo.push
      simp only [Sys.setConn, List.map_append, List.map_cons, List.map_nil, ↓reduceIte, Fifo.mk.injEq, Sys.mk.injEq, and_true]
      funext d
      by_cases hd : d = n
      · simp only [hd, ↓reduceIte]
        cases k'
        simp only at ho'
        subst ho'
        rfl
      · simp only [hd, ↓reduceIte]
    · show (if c = n then k' else conns c) = _
      rw [if_neg (show ¬ c = n by omega)]
      exact h2 c (by omega)

-- C134: the CONNECT of the 33rd connection finds the channel full; when the handler has taken one event it is next, behind 32 others
example (env : Env) : (Fifo.run env (Fifo.init helloPeers) (helloSteps 32 ++ [.read 32, .read 32])).waiting = [32]
    ∧ (Fifo.run env (Fifo.init helloPeers) (helloSteps 32 ++ [.read 32, .read 32])).sys.events.length = 32
    ∧ helloEvent 32 ∈ (Fifo.run env (Fifo.init helloPeers) (helloSteps 32 ++ [.read 32] ++ .read 32 :: [.handler 0] ++ [.read 32])).sys.log.map Prod.fst
      ++ (Fifo.run env (Fifo.init helloPeers) (helloSteps 32 ++ [.read 32] ++ .read 32 :: [.handler 0] ++ [.read 32])).sys.events := by
  obtain ⟨conns, h1, h2⟩ := hello_fill env 32 (by omega)
  obtain ⟨k', ho, _, hr⟩ := hello_speaks env 32
  rw [← h2 32 (Nat.le_refl _)] at ho hr
  have e1 : Fifo.run env (Fifo.init helloPeers) (helloSteps 32 ++ [.read 32])
      = ⟨Sys.setConn ⟨conns, (List.range 32).map helloEvent, .idle, .new, false, []⟩ 32 { k' with outbox := some (helloEvent 32) }, 0, [], []⟩ := by
    rw [Fifo.run_append, h1]
    show Fifo.stepRead env _ 32 = _
    unfold Fifo.stepRead
    simp only [ho]
    unfold Sys.stepRead
    simp only [ho, hr]
  have e2 : Fifo.run env (Fifo.init helloPeers) (helloSteps 32 ++ [.read 32, .read 32])
      = ⟨Sys.setConn ⟨conns, (List.range 32).map helloEvent, .idle, .new, false, []⟩ 32 { k' with outbox := some (helloEvent 32) }, 0, [32], []⟩ := by
    have : helloSteps 32 ++ [.read 32, .read 32] = (helloSteps 32 ++ [.read 32]) ++ [Step.read 32] := by simp
    rw [this, Fifo.run_append, e1]
    generalize (List.range 32).map helloEvent = evs
    simp only [Fifo.run, List.foldl_cons, List.foldl_nil, Fifo.step]
    unfold Fifo.stepRead
    simp only [Sys.setConn_self, Sys.setConn_handler, Sys.handlerAlive, ↓reduceIte, List.not_mem_nil, List.nil_append]
  have e3 : (Fifo.run env (Fifo.init helloPeers) (helloSteps 32 ++ [.read 32] ++ .read 32 :: [.handler 0])).sys.handlerAlive = true
      ∧ (Fifo.run env (Fifo.init helloPeers) (helloSteps 32 ++ [.read 32] ++ .read 32 :: [.handler 0])).sys.log.length = 1 := by
    have : helloSteps 32 ++ [.read 32] ++ .read 32 :: [.handler 0] = (helloSteps 32 ++ [.read 32, .read 32]) ++ [Step.handler 0] := by simp
    have h3 : (List.range 32).map helloEvent = helloEvent 0 :: ((List.range 31).map Nat.succ).map helloEvent := by
      rw [List.range_succ_eq_map]; rfl
    rw [this, Fifo.run_append, e2, h3]
    generalize ((List.range 31).map Nat.succ).map helloEvent = rest
    exact ⟨rfl, rfl⟩
  refine ⟨by rw [e2], by rw [e2]; simp, ?_⟩
  have e4 : ((Fifo.run env (Fifo.init helloPeers) (helloSteps 32 ++ [.read 32])).sys.conns 32).outbox = some (helloEvent 32) := by
    rw [e1]; simp only [Sys.setConn_self]
  have e5 : (Fifo.run env (Fifo.init helloPeers) (helloSteps 32 ++ [.read 32])).sys.log.length
      + (Fifo.run env (Fifo.init helloPeers) (helloSteps 32 ++ [.read 32])).waiting.length < 1 := by rw [e1]; simp
  rw [← e3.2] at e5
  have e6 := e3.1
  clear e1 e2 e3 h1
  generalize helloSteps 32 ++ [.read 32] = sched at *
  obtain ⟨before, _, h, _⟩ := C134_not_shut_out env helloPeers sched [.handler 0] 32 (helloEvent 32) e4 e6 e5
  exact h.subset (by simp)

end Ratel
