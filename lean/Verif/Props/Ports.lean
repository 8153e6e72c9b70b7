/-
C164: which listener a client comes through makes no difference.
-/
import Verif.Proofs.Ports
import Verif.Props.Boot

namespace Ratel

open Spec Sys

/-- C164. Take a process with one listener or more, and any execution. With any other number of listeners, and whichever of them each client
comes through, the same can happen: the same connections are accepted in the same order, the tasks are in the same state, every connection has
received the same and the main task is as far. -/
theorem C164_any_listener (env : Env) (W L L' : Nat) (hL : 0 < L) (peers : ConnId → Peer) (through : ConnId → Nat) (ht : ∀ c, through c < L')
    (ps : List PStep) :
    ∃ ps', (∀ l c, PStep.accept l c ∈ ps' → l = through c)
      ∧ (Proc.run env W (Proc.start L' peers) ps').sys = (Proc.run env W (Proc.start L peers) ps).sys
      ∧ (Proc.run env W (Proc.start L' peers) ps').accepted = (Proc.run env W (Proc.start L peers) ps).accepted
      ∧ (Proc.run env W (Proc.start L' peers) ps').main = (Proc.run env W (Proc.start L peers) ps).main := by
  have hL' : 0 < L' := Nat.lt_of_le_of_lt (Nat.zero_le _) (ht 0)
  obtain ⟨ps', h1, h2⟩ := Proc.alike_run env W L' hL' through ht (p := Proc.start L peers) (q := Proc.start L' peers)
    ⟨rfl, rfl, rfl, rfl, by simp only [Proc.start, Proc.any_replicate hL]⟩ ps
  exact ⟨ps', h1, h2.sys, h2.accepted, h2.main⟩

/-- C164, from the start on: the same for any two lists of addresses, once the broker is ready. -/
theorem C164_any_addresses (env : Env) (W : Nat) (peers : ConnId → Peer) (addrs addrs' : List String) (ha : addrs ≠ [])
    (through : ConnId → Nat) (ht : ∀ c, through c < addrs'.length) (bs : List BStep)
    (hr : (Boot.run env W ⟨Proc.start 0 peers, addrs, false⟩ bs).ready = true) :
    ∃ bs', (∀ l c, BStep.proc (.accept l c) ∈ bs' → l = through c)
      ∧ (Boot.run env W ⟨Proc.start 0 peers, addrs', false⟩ bs').ready = true
      ∧ (Boot.run env W ⟨Proc.start 0 peers, addrs', false⟩ bs').proc.sys = (Boot.run env W ⟨Proc.start 0 peers, addrs, false⟩ bs).proc.sys
      ∧ (Boot.run env W ⟨Proc.start 0 peers, addrs', false⟩ bs').proc.accepted = (Boot.run env W ⟨Proc.start 0 peers, addrs, false⟩ bs).proc.accepted
      ∧ (Boot.run env W ⟨Proc.start 0 peers, addrs', false⟩ bs').proc.main = (Boot.run env W ⟨Proc.start 0 peers, addrs, false⟩ bs).proc.main := by
  obtain ⟨ps, hps⟩ := (C117_boot_is_process env W peers addrs).2.1 bs hr
  obtain ⟨ps', h1, h2, h3, h4⟩ := C164_any_listener env W addrs.length addrs'.length (List.length_pos_iff.mpr ha) peers through ht ps
  have hrun : Boot.run env W ⟨Proc.start 0 peers, addrs', false⟩ (List.replicate addrs'.length (.bind true) ++ ([.ready] ++ ps'.map .proc))
      = ⟨Proc.run env W (Proc.start addrs'.length peers) ps', [], true⟩ := by
    rw [Boot.run_append, Boot.bind_all env W addrs' rfl, Boot.run_append]
    have : Boot.run env W ⟨{ Proc.start 0 peers with listeners := (Proc.start 0 peers).listeners ++ List.replicate addrs'.length true }, [], false⟩
        [.ready] = ⟨Proc.start addrs'.length peers, [], true⟩ := rfl
    rw [this, Boot.run_procs_ready]
  refine ⟨_, fun l c hm => ?_, by rw [hrun], by rw [hrun, hps]; exact h2, by rw [hrun, hps]; exact h3, by rw [hrun, hps]; exact h4⟩
  rcases List.mem_append.mp hm with hm | hm
  · have := (List.mem_replicate.mp hm).2
    cases this
  · rcases List.mem_append.mp hm with hm | hm
    · simp at hm
    · obtain ⟨x, hx, he⟩ := List.mem_map.mp hm
      cases he
      exact h1 l c hx

-- two clients, each through a listener of its own; one listener stops before the other
example : ((Proc.run exampleEnv 1 (Proc.start 2 examplePeers) [.accept 0 0, .accept 1 1, .task (.read 0), .signal, .stopListening 0, .stopListening 1, .main]).accepted,
    (Proc.run exampleEnv 1 (Proc.start 2 examplePeers) [.accept 0 0, .accept 1 1, .task (.read 0), .signal, .stopListening 0, .stopListening 1, .main]).main)
    = ([1, 0], .joinMessaging) := by decide +kernel

example : ∃ ps', (∀ l c, PStep.accept l c ∈ ps' → l = (fun c => c % 3) c)
    ∧ (Proc.run exampleEnv 1 (Proc.start 3 examplePeers) ps').accepted = [1, 0]
    ∧ (Proc.run exampleEnv 1 (Proc.start 3 examplePeers) ps').main = .joinMessaging := by
  obtain ⟨ps', h1, _, h3, h4⟩ := C164_any_listener exampleEnv 1 2 3 (by decide) examplePeers (fun c => c % 3) (fun c => Nat.mod_lt _ (by decide))
    [.accept 0 0, .accept 1 1, .task (.read 0), .signal, .stopListening 0, .stopListening 1, .main]
  exact ⟨ps', h1, by rw [h3]; decide +kernel, by rw [h4]; decide +kernel⟩

end Ratel
