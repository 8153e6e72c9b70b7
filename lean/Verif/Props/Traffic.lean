/-
C81 with figures: what so many bytes of input can cause.
-/
import Verif.Proofs.Traffic
import Verif.Props.Liveness

namespace Ratel

open Decoder Encoder Spec Sys

/-! ### C81 -/

/-- C81, events: whatever the schedule, the peers and the sockets do, each event handled has cost its sender at least two bytes, and each
topic filter subscribed to three more. -/
theorem C81_events (env : Env) (peers : ConnId → Peer) {N : Nat} {σ : Nat → Step} (hf : Few N σ) (n : Nat) :
    2 * (run env (init peers) (firstSteps σ n)).log.length
        + 3 * (((run env (init peers) (firstSteps σ n)).log.map Prod.fst).map filtersIn).sum
      ≤ sumTo N fun c => (peers c).segs.flatten.length := by
  have hinv := inv_run env peers (firstSteps σ n)
  have := orderly_cost (reads_orderly_served hinv.reads) (few_from env peers hf n)
  have hlen : (run env (init peers) (firstSteps σ n)).served.length = (run env (init peers) (firstSteps σ n)).log.length := List.length_map _
  rw [hlen] at this
  exact this

/-- C81, packets: as long as nobody publishes to a topic with wildcards, `B` bytes of input make the broker send `B` packets in all or, if
that is more, a twenty-fourth of the square of `B`; whatever the schedule and whatever the sockets do. -/
theorem C81_square (env : Env) (peers : ConnId → Peer) {N : Nat} {σ : Nat → Step} (hf : Few N σ)
    (hplain : ∀ c q ps, Decodes env.profile (peers c).segs.flatten (peers c).fin ps → .publish q ∈ ps → PlainTopic q.message.topic)
    {B : Nat} (hB : (sumTo N fun c => (peers c).segs.flatten.length) ≤ B) (n : Nat) :
    (sumTo N fun d => ((run env (init peers) (firstSteps σ n)).conns d).delivered.length) ≤ max B (B * B / 24) := by
  have hinv := inv_run env peers (firstSteps σ n)
  have ho := reads_orderly_served hinv.reads
  have hfrom := few_from env peers hf n
  have h1 := orderly_cost ho hfrom
  have h2 := outputs_cost (auth := env.auth) (evs := (run env (init peers) (firstSteps σ n)).served) N (fun id q tx hq => by
    obtain ⟨c, _, hc⟩ := hfrom _ hq
    obtain ⟨ps, hd, hp⟩ := ho c
    have hm := hp.subset (List.mem_filter.mpr ⟨hq, by simpa using hc⟩)
    refine hplain c q ps hd ?_
    cases ps with
    | nil => cases hm
    | cons p ps =>
      cases p with
      | connect p =>
        simp only [eventsOf, List.mem_cons, List.mem_map] at hm
        rcases hm with hm | ⟨x, hx, he⟩
        · cases hm
        · cases he; exact List.mem_cons_of_mem _ hx
      | _ => cases hm) Broker.start
  refine Nat.le_trans (sumTo_le fun d _ => (hinv.serves.delivered d).length_le) (Nat.le_trans h2 ?_)
  refine product_bound ?_
  simp only [Broker.start, List.length_nil, Nat.zero_add]
  exact Nat.le_trans h1 hB

/-! ### The hypotheses can be met -/

-- the two clients of the example send 200 bytes at the most, so that the broker sends them 1666 packets at the most
example (n : Nat) : (sumTo 2 fun d => ((run exampleEnv (init fun c => ⟨someAddr, "u", [clientBytes (examplePackets c)], .eof, []⟩)
    (firstSteps roundRobin n)).conns d).delivered.length) ≤ 1666 := by
  have hs : ∀ c, Sendable (examplePackets c) := fun c => by
    unfold examplePackets
    split
    · exact subscriber_sendable
    · split
      · exact publisher_sendable
      · intro x hx; cases hx
  exact C81_square exampleEnv (fun c => ⟨someAddr, "u", [clientBytes (examplePackets c)], .eof, []⟩) roundRobin_fair.few
    (fun c q ps hd hq => by
      have hm := (decodes_client_only (hs c) (by simpa using hd)).subset hq
      obtain ⟨x, hx, he⟩ := List.mem_map.mp hm
      unfold examplePackets at hx
      split at hx
      · simp only [subscriberPackets, List.mem_cons, List.not_mem_nil, or_false] at hx
        rcases hx with rfl | rfl <;> cases he
      · split at hx
        · simp only [publisherPackets, List.mem_cons, List.not_mem_nil, or_false, List.mem_replicate] at hx
          rcases hx with rfl | hx
          · cases he
          · obtain ⟨_, rfl⟩ := hx
            cases he
            exact ⟨by decide, by decide⟩
        · cases hx)
    (B := 200) (by decide +kernel) n

end Ratel
