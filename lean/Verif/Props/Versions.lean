/-
C165: clients of MQTT 3.1 and of MQTT 3.1.1 are served alike.
-/
import Verif.Spec.Versions
import Verif.Proofs.Scene
import Verif.Props.Orders
import Verif.Props.Boundary
import Verif.Props.Alike

namespace Ratel

open Spec Sys

theorem meaning_mqtt31 (p : ClientPacket) : meaning (mqtt31 p) = meaning p := by
  cases p <;> rfl

theorem sendable_mqtt31 {cs : List ClientPacket} (h : Sendable cs) (hl : (clientBytes (cs.map mqtt31)).length < 4096) : Sendable (cs.map mqtt31) := by
  intro x hx
  have hlen := clientBytes_part hx
  obtain ⟨p, hp, rfl⟩ := List.mem_map.mp hx
  obtain ⟨h1, h2, _⟩ := h p hp
  refine ⟨?_, ?_, by omega⟩
  · cases p <;> first | exact h1 | exact ⟨(by unfold Fits; decide +kernel : Fits "MQIsdp"), h1.2⟩
  · cases p <;> exact h2

theorem orderly_versions {env : Env} {peers peers' : ConnId → Peer} {cs cs' : ConnId → List ClientPacket}
    (hb : ∀ c, (peers c).segs.flatten = clientBytes (cs c)) (hb' : ∀ c, (peers' c).segs.flatten = clientBytes (cs' c))
    (hs : ∀ c, Sendable (cs c)) (hs' : ∀ c, Sendable (cs' c)) (hm : ∀ c, (cs' c).map meaning = (cs c).map meaning)
    (hi : ∀ c, (peers' c).uuid = (peers c).uuid ∧ (peers' c).addr = (peers c).addr) {evs : List ClientEvent} (h : Orderly env peers evs) :
    Orderly env peers' evs := by
  intro c
  obtain ⟨ps, hd, hp⟩ := h c
  rw [hb c] at hd
  refine ⟨(cs' c).map meaning, by rw [hb' c]; exact decodes_client _ _ _ (hs' c), ?_⟩
  have hpre := decodes_client_only (hs c) hd
  rw [hm c]
  have he : eventsOf (peers' c) c = eventsOf (peers c) c := by
    funext l
    unfold eventsOf idOf
    rw [(hi c).1, (hi c).2]
  rw [he]
  refine hp.trans ?_
  obtain ⟨t, ht⟩ := hpre
  rw [← ht]
  cases ps with
  | nil => exact List.nil_prefix
  | cons p ps =>
    cases p with
    | connect p => simp only [List.cons_append, eventsOf, List.map_append]; exact List.prefix_append _ _
    | _ => exact List.nil_prefix

/-- C165, the part that holds. Take clients of MQTT 3.1.1 that send legal packets without wills, fewer than 4096 bytes each, and the same
clients speaking MQTT 3.1. Whatever the broker can do with the ones, events handled and packets sent to each, it can do with the others.
Missing: longer connections, see `C165_any_length_partial`. -/
theorem C165_versions_partial (env : Env) (evs : List ClientEvent) (out : ConnId → List ServerEvent) : ∃ n : ConnId → Nat, ∀ (peers peers' : ConnId → Peer)
      (cs : ConnId → List ClientPacket),
    (∀ c, (peers c).segs.flatten = clientBytes (cs c)) → (∀ c, (peers' c).segs.flatten = clientBytes ((cs c).map mqtt31)) →
    (∀ c, Sendable (cs c)) → (∀ c, (clientBytes (cs c)).length < 4096) → (∀ c, (clientBytes ((cs c).map mqtt31)).length < 4096) →
    (∀ c, (peers' c).uuid = (peers c).uuid ∧ (peers' c).addr = (peers c).addr) →
    (∀ c, n c ≤ (peers c).script.length ∧ n c ≤ (peers' c).script.length) →
    ((∃ sched, (run env (init peers) sched).handler = .idle ∧ (run env (init peers) sched).log.map Prod.fst = evs
        ∧ ∀ d, ((run env (init peers) sched).conns d).delivered = out d)
      ↔ ∃ sched, (run env (init peers') sched).handler = .idle ∧ (run env (init peers') sched).log.map Prod.fst = evs
        ∧ ∀ d, ((run env (init peers') sched).conns d).delivered = out d) := by
  obtain ⟨n1, hn1⟩ := C77_orders_iff env evs
  obtain ⟨n2, hn2⟩ := C77_any_servable env evs
  refine ⟨fun c => max (n1 c) (n2 c), fun peers peers' cs hb hb' hs hl hl' hi hn => ?_⟩
  have hs' : ∀ c, Sendable ((cs c).map mqtt31) := fun c => sendable_mqtt31 (hs c) (hl' c)
  have hm : ∀ c, ((cs c).map mqtt31).map meaning = (cs c).map meaning := fun c => by
    rw [List.map_map]; congr 1; funext p; exact meaning_mqtt31 p
  have key : ∀ (peers peers' : ConnId → Peer) (cs cs' : ConnId → List ClientPacket), (∀ c, (peers c).segs.flatten = clientBytes (cs c)) →
      (∀ c, (peers' c).segs.flatten = clientBytes (cs' c)) → (∀ c, Sendable (cs c)) → (∀ c, Sendable (cs' c)) →
      (∀ c, (cs' c).map meaning = (cs c).map meaning) → (∀ c, (clientBytes (cs c)).length < 4096) → (∀ c, (clientBytes (cs' c)).length < 4096) →
      (∀ c, (peers' c).uuid = (peers c).uuid ∧ (peers' c).addr = (peers c).addr) →
      (∀ c, max (n1 c) (n2 c) ≤ (peers c).script.length ∧ max (n1 c) (n2 c) ≤ (peers' c).script.length) →
      (∃ sched, (run env (init peers) sched).handler = .idle ∧ (run env (init peers) sched).log.map Prod.fst = evs
        ∧ ∀ d, ((run env (init peers) sched).conns d).delivered = out d) →
      ∃ sched, (run env (init peers') sched).handler = .idle ∧ (run env (init peers') sched).log.map Prod.fst = evs
        ∧ ∀ d, ((run env (init peers') sched).conns d).delivered = out d := by
    rintro peers peers' cs cs' hb hb' hs hs' hm hl hl' hi hn ⟨sched, h1, h2, h3⟩
    have hsv := (hn1 peers (fun c => by rw [hb c]; exact hl c) (fun c => by have := (hn c).1; omega)).mp ⟨sched, h1, h2⟩
    obtain ⟨sched', g1, g2, g3⟩ := hn2 peers' (fun c => by rw [hb' c]; exact hl' c) (fun c => by have := (hn c).2; omega)
      ⟨orderly_versions hb hb' hs hs' hm hi hsv.orderly, hsv.from_conn, hsv.complete, hsv.room⟩
    refine ⟨sched', g1, g2, fun d => ?_⟩
    obtain ⟨b, _, _, ho⟩ := idle_rest (inv_run env peers sched).serves h1
    have hd := ho d
    rw [show (run env (init peers) sched).served = evs from h2] at hd
    rw [(g3 d).1, ← hd, h3 d]
  exact ⟨key peers peers' cs _ hb hb' hs hs' hm hl hl' hi hn,
    key peers' peers _ cs hb' hb hs' hs (fun c => (hm c).symm) hl' hl (fun c => ⟨(hi c).1.symm, (hi c).2.symm⟩) fun c => ⟨(hn c).2, (hn c).1⟩⟩

/-- C165, the part that holds, for connections of any length: if as many packets fit into the windows of the read buffer in the one version as in
the other, the broker can do the same with both, crashes included. Missing: releases of the library that reset an emptied view. -/
theorem C165_any_length_partial (env : Env) (hal : env.alloc.clearOnFullAdvance = false) (evs : List ClientEvent) (out : ConnId → List ServerEvent) :
    ∃ n : ConnId → Nat, ∀ (peers peers' : ConnId → Peer) (cs : ConnId → List ClientPacket), (∀ c, SameClient (peers c) (peers' c)) →
    (∀ c, (peers c).segs.flatten = clientBytes (cs c)) → (∀ c, (peers' c).segs.flatten = clientBytes ((cs c).map mqtt31)) →
    (∀ c, Sendable (cs c) ∧ Sendable ((cs c).map mqtt31)) →
    (∀ c, (fitting 4096 4096 ((cs c).map mqtt31)).length = (fitting 4096 4096 (cs c)).length) →
    (∀ c, n c ≤ (peers c).script.length ∧ n c ≤ (peers' c).script.length) →
    (CanServe env peers evs out ↔ CanServe env peers' evs out) ∧ (CanCrash env peers evs ↔ CanCrash env peers' evs) := by
  obtain ⟨n, hn⟩ := C168_clients_partial env hal evs out
  refine ⟨n, fun peers peers' cs hc hb hb' hs hf => hn peers peers' cs _ hc hb hb' hs fun c => ?_⟩
  have h1 := List.prefix_iff_eq_take.mp (fitting_prefix 4096 4096 (cs c))
  have h2 := List.prefix_iff_eq_take.mp (fitting_prefix 4096 4096 ((cs c).map mqtt31))
  rw [h2, hf c, h1, List.length_take, ← List.map_take, List.map_map, Nat.min_eq_left (fitting_prefix 4096 4096 (cs c)).length_le]
  rw [show meaning ∘ mqtt31 = meaning from funext meaning_mqtt31]

/-- C165 is violated: let a client of MQTT 3.1.1 send CONNECT, any legal packets and a message of more than two bytes that ends with byte 4096.
All of it is received. If the client speaks MQTT 3.1, and so sends two bytes more, the message is not: the reader spins. -/
theorem C165_versions_fails (al : Alloc) (pr : Profile) (c : Connect) (cs : List ClientPacket) (q : PublishPacket)
    (hv : c.protocolName = "MQTT") (hlc : Legal (.connect c)) (hnw : c.will = none) (hsmall : (connectRest c).length < 126)
    (hcs : ∀ x ∈ cs, Legal x ∧ NoWill x ∧ (clientRest x).length < 2097152 ∧ mqtt31 x = x)
    (hl : LegalPublish q) (hp : 2 < q.message.payload.length) (htotal : (clientBytes (.connect c :: cs ++ [.publish q])).length = 4096)
    (segs segs' : List (List UInt8)) (fin : Ending) (hsegs : segs.flatten = clientBytes (.connect c :: cs ++ [.publish q]))
    (hsegs' : segs'.flatten = clientBytes ((ClientPacket.connect c :: cs ++ [ClientPacket.publish q]).map mqtt31))
    (hsplit : al.clearOnFullAdvance = false ∨ ∃ all, segs' = [all]) :
    (received al pr 4096 segs fin (cs.length + 2)).1 = .ok ((ClientPacket.connect c :: cs ++ [ClientPacket.publish q]).map meaning)
    ∧ (received al pr 4096 segs' fin (cs.length + 2)).1 = .hang := by
  have hq : (publishRest q).length < 2097152 := by
    have := clientBytes_part (cs := .connect c :: cs ++ [.publish q]) (c := .publish q) (by simp)
    simp only [clientRest] at this
    omega
  have hc : ∀ x ∈ .connect c :: cs, Legal x ∧ NoWill x ∧ (clientRest x).length < 2097152 := by
    intro x hx
    rcases List.mem_cons.mp hx with rfl | hx
    · exact ⟨hlc, hnw, by simp only [clientRest]; omega⟩
    · exact ⟨(hcs x hx).1, (hcs x hx).2.1, (hcs x hx).2.2.1⟩
  have hmap : cs.map mqtt31 = cs := List.map_congr_left (fun x hx => (hcs x hx).2.2.2) |>.trans (List.map_id cs)
  have hrest : (connectRest { c with protocolName := "MQIsdp", protocolLevel := 3 }).length = (connectRest c).length + 2 := by
    have e1 : (str "MQIsdp").length = 8 := by decide +kernel
    have e2 : (str "MQTT").length = 6 := by decide +kernel
    unfold connectRest
    rw [hv]
    simp only [List.length_append, e1, e2]
    simp
    omega
  have hone : ∀ k, k < 128 → (varInt k).length = 1 := fun k hk => by
    unfold varInt
    rw [if_pos hk]; rfl
  have hc' : ∀ x ∈ mqtt31 (.connect c) :: cs, Legal x ∧ NoWill x ∧ (clientRest x).length < 2097152 := by
    intro x hx
    rcases List.mem_cons.mp hx with rfl | hx
    · exact ⟨⟨(by unfold Fits; decide +kernel : Fits "MQIsdp"), hlc.2⟩, hnw, by simp only [mqtt31, clientRest]; omega⟩
    · exact ⟨(hcs x hx).1, (hcs x hx).2.1, (hcs x hx).2.2.1⟩
  have hlen : ∀ x y : List ClientPacket, (clientBytes (x ++ y)).length = (clientBytes x).length + (clientBytes y).length := by
    intro x y; simp [clientBytes]
  have hpk : ∀ x : ClientPacket, (clientBytes [x]).length = 1 + (varInt (clientRest x).length).length + (clientRest x).length := by
    intro x; simp [clientBytes, packet]; omega
  have hpay : q.message.payload.length ≤ (publishRest q).length := by
    unfold publishRest; simp only [List.length_append]; omega
  have h1 := hpk (.connect c)
  have h2 := hpk (mqtt31 (.connect c))
  have h3 := hpk (.publish q)
  simp only [mqtt31, clientRest] at h1 h2 h3
  rw [hrest, hone _ (by omega)] at h2
  rw [hone _ (by omega)] at h1
  have ht := hlen (.connect c :: cs) [.publish q]
  have hcc := hlen [.connect c] cs
  have hcc' := hlen [mqtt31 (.connect c)] cs
  simp only [List.cons_append, List.nil_append] at hcc hcc' ht htotal
  simp only [mqtt31] at hcc'
  refine ⟨?_, ?_⟩
  · have := C15_large_messages_partial al pr (.connect c :: cs ++ [.publish q]) (fun x hx => ?_) segs fin [] ?_ (by rw [hsegs]; simp [clientBytes])
    · simpa using this
    · rcases List.mem_append.mp hx with hx | hx
      · exact hc x hx
      · rw [List.mem_singleton.mp hx]; exact ⟨hl, trivial, hq⟩
    · show (clientBytes _).length ≤ 4096
      simp only [List.cons_append]
      omega
  · have := C90_small_messages_fails al pr (mqtt31 (.connect c) :: cs) hc' q hl hq segs' fin [] ?_ hsplit (.inr ?_)
    · simpa using this
    · rw [hsegs', List.map_append, List.map_cons, hmap]
      show clientBytes ((mqtt31 (.connect c) :: cs) ++ [.publish q]) = clientBytes (mqtt31 (.connect c) :: cs) ++ _
      simp [clientBytes, clientFirst, clientRest]
    · have e : (sentBytes (mqtt31 (.connect c) :: cs) ++ packet (publishFirst q) (publishRest q)).length = 4098 := by
        show (clientBytes (mqtt31 (.connect c) :: cs) ++ packet (publishFirst q) (publishRest q)).length = 4098
        rw [List.length_append]
        have : (packet (publishFirst q) (publishRest q)).length = (clientBytes [.publish q]).length := by
          rw [h3]; simp [packet]; omega
        rw [this]
        simp only [mqtt31]
        omega
      rw [e]
      exact ⟨by omega, by omega⟩

/-! ### Examples -/

/-- A client that connects and pings, with a socket that takes `n` writes. -/
def pinging (n : ConnId → Nat) (f : ClientPacket → ClientPacket) : ConnId → Peer := fun c =>
  ⟨someAddr, "u", [clientBytes (([hello "c", .pingReq] : List ClientPacket).map f)], .eof, List.replicate (n c) (.accept 4096)⟩

example (n : ConnId → Nat) :
    (∀ c, (pinging n id c).segs.flatten = clientBytes [hello "c", .pingReq])
    ∧ (∀ c, (pinging n mqtt31 c).segs.flatten = clientBytes ([hello "c", .pingReq].map mqtt31))
    ∧ Sendable [hello "c", .pingReq] ∧ (clientBytes [hello "c", .pingReq]).length < 4096
    ∧ (clientBytes ([hello "c", .pingReq].map mqtt31)).length < 4096
    ∧ clientBytes [hello "c", .pingReq] ≠ clientBytes ([hello "c", .pingReq].map mqtt31) := by
  refine ⟨fun c => by simp [pinging], fun c => by simp [pinging], fun x hx => ?_, by decide +kernel, by decide +kernel, by decide +kernel⟩
  simp only [List.mem_cons, List.not_mem_nil, or_false] at hx
  rcases hx with rfl | rfl
  · exact ⟨⟨(by unfold Fits; decide +kernel : Fits "MQTT"), (by unfold Fits; decide +kernel : Fits "c"), by simp, by simp, by simp⟩, rfl, by decide +kernel⟩
  · exact ⟨trivial, trivial, by decide +kernel⟩

-- C165_any_length_partial: any number of pings
example (n : Nat) : (fitting 4096 4096 ((hello "c" :: List.replicate n .pingReq).map mqtt31)).length
    = (fitting 4096 4096 (hello "c" :: List.replicate n .pingReq)).length := by
  have e : (hello "c" :: List.replicate n ClientPacket.pingReq).map mqtt31 = mqtt31 (hello "c") :: List.replicate n .pingReq := by
    rw [List.map_cons, List.map_replicate]; rfl
  rw [e, fitting, fitting]
  cases h1 : windows 4096 4096 (fields (mqtt31 (hello "c"))) with
  | none => exact absurd h1 (by decide +kernel)
  | some l =>
    cases h2 : windows 4096 4096 (fields (hello "c")) with
    | none => exact absurd h2 (by decide +kernel)
    | some l' =>
      dsimp only
      rw [fitting_pings, fitting_pings]
      rfl

/-- A message of `n` bytes. -/
def filling (n : Nat) : PublishPacket := ⟨none, false, ⟨"t", List.replicate n 0, .atMostOnce, false⟩⟩

theorem filling_rest (n : Nat) : (publishRest (filling n)).length = n + 3 := by
  have : (utf8 "t").length = 1 := by decide +kernel
  simp [publishRest, filling, str, twoBytes, this, Spec.optional]
  omega

theorem filling_payload (n : Nat) : (filling n).message.payload.length = n := by simp [filling]

example (al : Alloc) (pr : Profile) :
    (received al pr 4096 [clientBytes [hello "c", .publish (filling 4075)]] .silence 2).1 = .ok ([hello "c", .publish (filling 4075)].map meaning)
    ∧ (received al pr 4096 [clientBytes ([hello "c", .publish (filling 4075)].map mqtt31)] .silence 2).1 = .hang := by
  have hr := filling_rest 4075
  have hv : (varInt 4078).length = 2 := by decide +kernel
  have hh : (clientBytes [hello "c"]).length = 15 := by decide +kernel
  refine C165_versions_fails al pr ⟨"MQTT", 4, true, 60, "c", none, none, none⟩ [] (filling 4075) rfl
    ⟨(by unfold Fits; decide +kernel : Fits "MQTT"), (by unfold Fits; decide +kernel : Fits "c"), by simp, by simp, by simp⟩ rfl (by decide +kernel)
    (fun x hx => by cases hx) ?_ (by rw [filling_payload]; decide) ?_ _ _ .silence (by simp [hello]) (by simp [hello]) (.inr ⟨_, rfl⟩)
  · exact ⟨(by unfold Fits; decide +kernel : Fits "t"), ⟨fun h => (by cases h), fun h => absurd rfl h⟩⟩
  · have : clientBytes ([.connect ⟨"MQTT", 4, true, 60, "c", none, none, none⟩] ++ [.publish (filling 4075)])
        = clientBytes [hello "c"] ++ packet (publishFirst (filling 4075)) (publishRest (filling 4075)) := by
      simp [clientBytes, hello, clientFirst, clientRest]
    show (clientBytes ([.connect ⟨"MQTT", 4, true, 60, "c", none, none, none⟩] ++ [.publish (filling 4075)])).length = 4096
    rw [this, List.length_append, hh]
    simp only [packet, List.length_cons, List.length_append, hr, hv]

end Ratel
