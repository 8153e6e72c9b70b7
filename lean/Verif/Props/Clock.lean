/-
C175: what the clock says makes no difference.
-/
import Verif.Spec.Clock
import Verif.Proofs.Clock
import Verif.Props.Journal

namespace Ratel

open Spec

/-- C175. Two executions of the process in which the tasks do the same steps, but the clock says different things, set forward, set back or standing
still, cannot be told apart from outside: every connection is read, sent and written the same at every moment, and the log has the same records. -/
theorem C175_clock (t : Texts) (env : Env) (W F L : Nat) (peers : ConnId → Sys.Peer) (sched sched' : List PStep) (h : SameButClock sched sched') :
    SameOutside (Files.run env W F (Proc.start L peers) sched) (Files.run env W F (Proc.start L peers) sched')
    ∧ Files.transcript t env W F (Proc.start L peers) sched' = Files.transcript t env W F (Proc.start L peers) sched := by
  have h1 := Clock.run_files env W F (Proc.start L peers) sched
  have h2 := Clock.run_files env W F (Proc.start L peers) sched'
  rw [h, h1] at h2
  refine ⟨?_, ?_⟩
  · generalize Files.run env W F (Proc.start L peers) sched = p at h2
    generalize Files.run env W F (Proc.start L peers) sched' = p' at h2
    have hs : Clock.sys p.sys = Clock.sys p'.sys := congrArg Proc.sys h2
    have hl : (p.sys.log.map fun e => (e.1, (0 : Instant))) = p'.sys.log.map fun e => (e.1, (0 : Instant)) := congrArg Sys.log hs
    refine ⟨(congrArg Sys.conns hs).symm, (congrArg Sys.events hs).symm, (congrArg Sys.handler hs).symm, ?_, (congrArg Sys.ctrlC hs).symm,
      (congrArg Proc.accepted h2).symm, (congrArg Proc.listeners h2).symm, (congrArg Proc.messagingUp h2).symm, (congrArg Proc.main h2).symm⟩
    have := congrArg (List.map Prod.fst) hl
    rw [List.map_map, List.map_map] at this
    exact this.symm
  · have k1 := Clock.transcript_files t env W F (Proc.start L peers) sched
    have k2 := Clock.transcript_files t env W F (Proc.start L peers) sched'
    rw [h, k1] at k2
    exact k2.symm

-- a client connects; once the clock says 0, once it is set back between steps
example : SameButClock
    [.accept 0 0, .task (.read 0), .task (.read 0), .task (.handler 0), .task (.handler 0), .task (.read 0), .task (.read 0), .task (.handler 0)]
    [.accept 0 0, .task (.read 0), .task (.read 0), .task (.handler 5), .task (.handler (-7)), .task (.read 0), .task (.read 0), .task (.handler 99)] := by
  rfl

-- there, the CONNACK is sent
example : ((Files.run exampleEnv 4 100 (Proc.start 1 examplePeers)
      [.accept 0 0, .task (.read 0), .task (.read 0), .task (.handler 5), .task (.handler (-7))]).sys.conns 0).delivered
    = [.controlPacket (.connAck ⟨false, .accepted⟩)] := by decide +kernel

end Ratel
