/-
C152: what a client reads is what it expects.
-/
import Verif.Proofs.Dialogue
import Verif.Props.Close
import Verif.Props.Open

namespace Ratel

open Decoder Encoder Spec Sys

/-! ### C152 -/

/-- C152. Whatever the peers send, however the tasks are scheduled and the sockets behave: what the write task of a connection is given to
write is nothing, or what a client expects that has sent the packets the bytes of the connection stand for. -/
theorem C152_dialogue (env : Env) (peers : ConnId → Peer) (sched : List Step) (d : ConnId) :
    ((run env (init peers) sched).conns d).written = []
    ∨ ∃ p ps, Decodes env.profile (peers d).segs.flatten (peers d).fin (.connect p :: ps) ∧ login env.auth p ≠ .incomplete
      ∧ Expected (login env.auth p) ps ((run env (init peers) sched).conns d).written := by
  have hinv := inv_run env peers sched
  have ho := reads_orderly_served hinv.reads
  have hw : ((run env (init peers) sched).conns d).written.map ServerEvent.controlPacket
      <+: Broker.start.outputs env.auth (run env (init peers) sched).served d :=
    ((List.prefix_append _ _).trans (hinv.writes d).sent).trans (hinv.serves.delivered d)
  exact outputs_expected ho hw fun p hp hl => ((C108_refused_closed env peers d p hp hl).1 sched).length_le

/-- C152 for what the client gets: unless a write fails, whatever packets it can read from the bytes that have reached it are what it
expects. -/
theorem C152_read (env : Env) (peers : ConnId → Peer) (sched : List Step) (d : ConnId) (hf : ∀ o ∈ (peers d).script, o ≠ .fail)
    (xs : List ControlPacket) (hxs : ∀ p ∈ xs, ServerPacket p)
    (hx : xs.flatMap (fun p => (encoded p).2) <+: ((run env (init peers) sched).conns d).wr.wire) :
    xs = [] ∨ ∃ p ps, Decodes env.profile (peers d).segs.flatten (peers d).fin (.connect p :: ps) ∧ login env.auth p ≠ .incomplete
      ∧ Expected (login env.auth p) ps xs := by
  have hinv := inv_run env peers sched
  have ho := reads_orderly_served hinv.reads
  have hw := (C139_read_back env peers sched d hf xs hxs hx).trans (hinv.serves.delivered d)
  refine outputs_expected ho hw fun p hp hl => ?_
  rcases refused_outputs ho hp hl with h | ⟨rest, h⟩
  · rw [h] at hw
    have : xs = [] := by simpa using hw
    simp [this]
  · rw [h] at hw
    exact (map_prefix_cut (as := [.connAck ⟨false, .notAuthorized⟩]) hw).length_le

/-! ### The hypotheses can be met -/

-- a client that has been written its CONNACK, and one that has been refused
example : ∃ sched, ((run exampleEnv (init examplePeers) sched).conns 0).written.length = 1
    ∧ ((run exampleEnv (init examplePeers) sched).conns 3).written = [.connAck ⟨false, .notAuthorized⟩] :=
  ⟨[.read 0, .read 0, .handler 0, .handler 0, .write 0, .read 3, .read 3, .handler 0, .handler 0, .handler 0, .write 3], by decide +kernel⟩

example : Expected .accepted [.subscribe ⟨1, [⟨"t", .atMostOnce⟩]⟩, .pingReq]
    [.connAck ⟨false, .accepted⟩, .publish blank, .subAck ⟨1, [.successQoS0]⟩, .publish blank, .pingResp] :=
  .inr ⟨_, rfl, by decide +kernel, fun h => absurd rfl h⟩

-- an answer that was not asked for, one that comes too early, and a second CONNACK are not expected
example : ¬ Expected .accepted [.subscribe ⟨1, [⟨"t", .atMostOnce⟩]⟩, .pingReq] [.connAck ⟨false, .accepted⟩, .pingResp] := by
  rintro (h | ⟨_, h, h', _⟩)
  · cases h
  · cases h; revert h'; decide +kernel

end Ratel
