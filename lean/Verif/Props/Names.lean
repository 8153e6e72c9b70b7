/-
C174: names have no meaning.
-/
import Verif.Spec.Names
import Verif.Proofs.Names
import Verif.Props.Alike

namespace Ratel

open Spec Sys

/-- C174. Take some clients, and the same under other client ids, with other names for the levels of topics and other payloads: different names for
different ids and levels, the wildcards left alone. Whatever the broker can do with the ones it can do with the others, renamed: the same order of
events, the same packets to the same connections, the same crashes; as long as what is received from the ones is received, renamed, from the others,
and their sockets take enough writes. -/
theorem C174_names (env : Env) (r : Renaming) (hr : r.Faithful) (evs : List ClientEvent) (out : ConnId → List ServerEvent) :
    ∃ n : ConnId → Nat, ∀ (peers peers' : ConnId → Peer), (∀ c, SameClientAs r (peers c) (peers' c)) →
    (∀ c ps, Receives env (peers c) ps → Receives env (peers' c) (ps.map r.packet)) →
    (∀ c, n c ≤ (peers c).script.length ∧ n c ≤ (peers' c).script.length) →
    (CanServe env peers evs out → CanServe env peers' (evs.map r.event) fun d => (out d).map r.sent)
    ∧ (CanCrash env peers evs → CanCrash env peers' (evs.map r.event)) := by
  obtain ⟨n1, hn1⟩ := C77_any_length_iff env evs
  obtain ⟨n2, hn2⟩ := C77_any_possible env (evs.map r.event)
  obtain ⟨n3, hn3⟩ := C135_any_length_iff env evs
  obtain ⟨n4, hn4⟩ := C135_any_length_iff env (evs.map r.event)
  refine ⟨fun c => max (max (n1 c) (n2 c)) (max (n3 c) (n4 c)), fun peers peers' hc hp hn => ?_⟩
  replace hn : ∀ c, max (max (n1 c) (n2 c)) (max (n3 c) (n4 c)) ≤ (peers c).script.length
      ∧ max (max (n1 c) (n2 c)) (max (n3 c) (n4 c)) ≤ (peers' c).script.length := hn
  refine ⟨?_, fun h => ?_⟩
  · rintro ⟨sched, h1, h2, h3⟩
    have g := (hn1 peers (fun c => by have := (hn c).1; omega)).mp ⟨sched, h1, h2⟩
    obtain ⟨sched', k1, k2, k3⟩ := hn2 peers' (fun c => by have := (hn c).2; omega) (Renaming.possible_renamed hr hc hp g)
    refine ⟨sched', k1, k2, fun d => ?_⟩
    obtain ⟨b, _, _, ho⟩ := idle_rest (inv_run env peers sched).serves h1
    have hd := ho d
    rw [show (run env (init peers) sched).served = evs from h2] at hd
    rw [(k3 d).1, Renaming.Of.outputs hr env.auth evs Renaming.Of.start d, ← hd, h3 d]
  · obtain ⟨g1, g2, g3, g4⟩ := (hn3 peers (fun c => by have := (hn c).1; omega)).mp h
    refine (hn4 peers' (fun c => by have := (hn c).2; omega)).mpr ⟨?_, Renaming.inOrder_renamed hr hc hp g2, fun ev hev => ?_, Renaming.fatal_renamed hr g4⟩
    · rw [← List.map_dropLast]
      exact Renaming.possible_renamed hr hc hp g1
    · obtain ⟨e, he, rfl⟩ := List.mem_map.mp hev
      obtain ⟨c, h1⟩ := g3 e he
      exact ⟨c, (Renaming.from_event c e).mpr h1⟩

/-- C174, both ways: if the renaming can be undone, the broker can do with the renamed clients nothing else than what it can do with the others,
renamed. -/
theorem C174_names_iff (env : Env) (r u : Renaming) (hr : r.Faithful) (hu : u.Faithful) (h1 : ∀ i, u.id (r.id i) = i)
    (h2 : ∀ t, u.topic (r.topic t) = t) (h3 : ∀ b, u.payload (r.payload b) = b) (evs : List ClientEvent) (out : ConnId → List ServerEvent) :
    ∃ n : ConnId → Nat, ∀ (peers peers' : ConnId → Peer), (∀ c, SameClientAs r (peers c) (peers' c)) →
    (∀ c ps, Receives env (peers c) ps → Receives env (peers' c) (ps.map r.packet)) →
    (∀ c ps, Receives env (peers' c) ps → Receives env (peers c) (ps.map u.packet)) →
    (∀ c, n c ≤ (peers c).script.length ∧ n c ≤ (peers' c).script.length) →
    (CanServe env peers evs out ↔ CanServe env peers' (evs.map r.event) fun d => (out d).map r.sent)
    ∧ (CanCrash env peers evs ↔ CanCrash env peers' (evs.map r.event)) := by
  have hm : ∀ m, u.message (r.message m) = m := fun m => by simp only [Renaming.message, h2, h3]
  have hc : ∀ p, u.connect (r.connect p) = p := fun p => by
    have : (u.message ∘ r.message) = id := funext hm
    simp only [Renaming.connect, h1, Option.map_map, this, Option.map_id, id]
  have hp : ∀ p, u.packet (r.packet p) = p := fun p => by
    cases p with
    | connect p => simp only [Renaming.packet, hc]
    | publish q => simp only [Renaming.packet, Renaming.publish, hm]
    | subscribe s =>
      simp only [Renaming.packet, List.map_map, Function.comp_def, h2]
      exact congrArg (fun l => ControlPacket.subscribe { s with subscriptions := l }) (List.map_id _)
    | unsubscribe s =>
      simp only [Renaming.packet, List.map_map, Function.comp_def, h2]
      exact congrArg (fun l => ControlPacket.unsubscribe { s with topics := l }) (List.map_id _)
    | _ => rfl
  have he : ∀ ev, u.event (r.event ev) = ev := fun ev => by cases ev <;> simp only [Renaming.event, hc, hp, h1]
  have hs : ∀ ev, u.sent (r.sent ev) = ev := fun ev => by cases ev <;> simp only [Renaming.sent, hp]
  have hes : ∀ l : List ClientEvent, (l.map r.event).map u.event = l := fun l => by
    rw [List.map_map, show u.event ∘ r.event = id from funext he, List.map_id]
  have hss : ∀ l : List ServerEvent, (l.map r.sent).map u.sent = l := fun l => by
    rw [List.map_map, show u.sent ∘ r.sent = id from funext hs, List.map_id]
  obtain ⟨n, hn⟩ := C174_names env r hr evs out
  obtain ⟨m, hm⟩ := C174_names env u hu (evs.map r.event) fun d => (out d).map r.sent
  refine ⟨fun c => max (n c) (m c), fun peers peers' hc hp hp' hl => ?_⟩
  replace hl : ∀ c, max (n c) (m c) ≤ (peers c).script.length ∧ max (n c) (m c) ≤ (peers' c).script.length := hl
  have k1 := hn peers peers' hc hp fun c => by have := hl c; omega
  have k2 := hm peers' peers (fun c => ⟨by rw [(hc c).1, h1], (hc c).2.symm⟩) hp' fun c => by have := hl c; omega
  simp only [hes, hss] at k2
  exact ⟨⟨k1.1, k2.1⟩, ⟨k1.2, k2.2⟩⟩

theorem receives_renamed {env : Env} {r : Renaming} {peer peer' : Peer} {cs : List ClientPacket} (hb : peer.segs.flatten = clientBytes cs)
    (hb' : peer'.segs.flatten = clientBytes (cs.map r.client)) (hs : Sendable cs) (hs' : Sendable (cs.map r.client))
    (hl : (clientBytes (cs.map r.client)).length < 4096) {ps : List ControlPacket} (h : Receives env peer ps) :
    Receives env peer' (ps.map r.packet) := by
  have hd := receives_decodes h
  rw [hb] at hd
  have hpre := decodes_client_only hs hd
  obtain ⟨t, ht⟩ := hpre
  have e : (cs.map r.client).map meaning = ps.map r.packet ++ t.map r.packet := by
    rw [← List.map_append, ht, List.map_map, List.map_map]
    exact List.map_congr_left fun p _ => Renaming.meaning_client p
  have hd' : Decodes env.profile peer'.segs.flatten peer'.fin (ps.map r.packet ++ t.map r.packet) := by
    rw [hb', ← e]; exact decodes_client _ _ _ hs'
  have hr' := receives_iff.mpr (finds_new env peer' hd' (by rw [hb']; exact hl)).2
  exact receives_prefix hr' (List.prefix_append _ _)

/-- C174, for clients that send legal packets without wills, fewer than 4096 bytes each. -/
theorem C174_clients (env : Env) (r : Renaming) (hr : r.Faithful) (evs : List ClientEvent) (out : ConnId → List ServerEvent) :
    ∃ n : ConnId → Nat, ∀ (peers peers' : ConnId → Peer) (cs : ConnId → List ClientPacket), (∀ c, SameClientAs r (peers c) (peers' c)) →
    (∀ c, (peers c).segs.flatten = clientBytes (cs c)) → (∀ c, (peers' c).segs.flatten = clientBytes ((cs c).map r.client)) →
    (∀ c, Sendable (cs c) ∧ Sendable ((cs c).map r.client)) → (∀ c, (clientBytes ((cs c).map r.client)).length < 4096) →
    (∀ c, n c ≤ (peers c).script.length ∧ n c ≤ (peers' c).script.length) →
    (CanServe env peers evs out → CanServe env peers' (evs.map r.event) fun d => (out d).map r.sent)
    ∧ (CanCrash env peers evs → CanCrash env peers' (evs.map r.event)) := by
  obtain ⟨n, hn⟩ := C174_names env r hr evs out
  exact ⟨n, fun peers peers' cs hc hb hb' hs hl => hn peers peers' hc fun c ps =>
    receives_renamed (hb c) (hb' c) (hs c).1 (hs c).2 (hl c)⟩

/-! ### Examples -/

/-- Two texts changing places. -/
def swap (a b s : String) : String := if s = a then b else if s = b then a else s

theorem swap_swap {a b : String} (h : a ≠ b) (s : String) : swap a b (swap a b s) = s := by
  unfold swap
  by_cases h1 : s = a
  · subst h1; simp [Ne.symm h]
  · by_cases h2 : s = b
    · subst h2; simp [h1]
    · simp [h1, h2]

/-- Clients "a" and "b" change names, levels "x" and "$SYS" too, and all messages are empty. -/
def exampleRenaming : Renaming where
  id := swap "a" "b"
  topic := fun s => String.ofList (joinLevels ((splitTopic s).map fun l => (swap "x" "$SYS" l).toList))
  payload := fun _ => []

theorem exampleRenaming_faithful : exampleRenaming.Faithful where
  ids := fun s t h => by
    have := congrArg (swap "a" "b") h
    rwa [show exampleRenaming.id = swap "a" "b" from rfl, swap_swap (by decide), swap_swap (by decide)] at this
  empty := by decide
  levels := by
    refine ⟨swap "x" "$SYS", fun s t h => ?_, by decide, by decide, fun s ls h => ⟨?_, ?_, ?_⟩⟩
    · have := congrArg (swap "x" "$SYS") h
      rwa [swap_swap (by decide), swap_swap (by decide)] at this
    · simpa using h.some
    · intro l hl
      obtain ⟨k, hk, rfl⟩ := List.mem_map.mp hl
      unfold swap
      by_cases h1 : k = "x"
      · rw [if_pos h1]; decide
      · rw [if_neg h1]
        by_cases h2 : k = "$SYS"
        · rw [if_pos h2]; decide
        · rw [if_neg h2]; exact h.noSlash k hk
    · rw [levels_unique h]
      simp [exampleRenaming, List.map_map, Function.comp_def]

/-- Client "a" listens to everything below "x"; the others publish there. -/
def namedPackets (c : ConnId) : List ClientPacket :=
  if c = 0 then [hello "a", .subscribe 1 [("x/#", .atMostOnce)]] else [hello "b", .publish ⟨none, false, ⟨"x/y", [1, 2], .atMostOnce, false⟩⟩]

def namedPeers (n : ConnId → Nat) (f : ClientPacket → ClientPacket) : ConnId → Peer := fun c =>
  ⟨someAddr, "u", [clientBytes ((namedPackets c).map f)], .eof, List.replicate (n c) (.accept 4096)⟩

-- the filter becomes "$SYS/#", the topic "$SYS/y"
example : (namedPackets 0).map (meaning ∘ exampleRenaming.client)
      = [hello "b", .subscribe 1 [("$SYS/#", .atMostOnce)]].map meaning
    ∧ (namedPackets 1).map (meaning ∘ exampleRenaming.client)
      = [hello "a", .publish ⟨none, false, ⟨"$SYS/y", [], .atMostOnce, false⟩⟩].map meaning := by decide +kernel

theorem named_sendable (c : ConnId) : Sendable (namedPackets c) ∧ Sendable ((namedPackets c).map exampleRenaming.client)
    ∧ (clientBytes ((namedPackets c).map exampleRenaming.client)).length < 4096 := by
  have e : ∀ c, c ≠ 0 → namedPackets c = namedPackets 1 := fun c hc => by simp [namedPackets, hc]
  have hh : ∀ id, Fits id → Legal (hello id) := fun id h => ⟨(by unfold Fits; decide +kernel : Fits "MQTT"), h, by simp, by simp, by simp⟩
  have k : ∀ id x y f t pl, Fits id → Fits f → Fits t → x = ([hello id, .subscribe 1 [(f, .atMostOnce)]] : List ClientPacket) →
      y = ([hello id, .publish ⟨none, false, ⟨t, pl, .atMostOnce, false⟩⟩] : List ClientPacket) →
      (∀ p ∈ x ++ y, (clientRest p).length < 2097152) → Sendable x ∧ Sendable y := by
    rintro id x y f t pl h1 h2 h3 rfl rfl h4
    refine ⟨fun p hp => ⟨?_, ?_, h4 p (List.mem_append_left _ hp)⟩, fun p hp => ⟨?_, ?_, h4 p (List.mem_append_right _ hp)⟩⟩
    · simp only [List.mem_cons, List.not_mem_nil, or_false] at hp
      rcases hp with rfl | rfl
      · exact hh id h1
      · simpa [Legal] using h2
    · simp only [List.mem_cons, List.not_mem_nil, or_false] at hp
      rcases hp with rfl | rfl
      · rfl
      · trivial
    · simp only [List.mem_cons, List.not_mem_nil, or_false] at hp
      rcases hp with rfl | rfl
      · exact hh id h1
      · exact ⟨h3, ⟨fun h => (by cases h), fun h => absurd rfl h⟩⟩
    · simp only [List.mem_cons, List.not_mem_nil, or_false] at hp
      rcases hp with rfl | rfl
      · rfl
      · trivial
  by_cases hc : c = 0
  · subst hc
    have e1 : namedPackets 0 = [hello "a", .subscribe 1 [("x/#", .atMostOnce)]] := rfl
    have e2 : (namedPackets 0).map exampleRenaming.client = [hello "b", .subscribe 1 [("$SYS/#", .atMostOnce)]] := by
      rw [e1]
      simp only [List.map_cons, List.map_nil, hello, Renaming.client, Option.map_none]
      rw [show exampleRenaming.id "a" = "b" by decide +kernel, show exampleRenaming.topic "x/#" = "$SYS/#" by decide +kernel]
    refine ⟨(k "a" _ _ "x/#" "x" [] ?_ ?_ ?_ e1 rfl (by rw [e1]; decide +kernel)).1,
      (k "b" _ _ "$SYS/#" "x" [] ?_ ?_ ?_ e2 rfl (by rw [e2]; decide +kernel)).1, by rw [e2]; decide +kernel⟩ <;> (unfold Fits; decide +kernel)
  · rw [e c hc]
    have e1 : namedPackets 1 = [hello "b", .publish ⟨none, false, ⟨"x/y", [1, 2], .atMostOnce, false⟩⟩] := rfl
    have e2 : (namedPackets 1).map exampleRenaming.client = [hello "a", .publish ⟨none, false, ⟨"$SYS/y", [], .atMostOnce, false⟩⟩] := by
      rw [e1]
      simp only [List.map_cons, List.map_nil, hello, Renaming.client, Renaming.publish, Renaming.message, Option.map_none]
      rw [show exampleRenaming.id "b" = "a" by decide +kernel, show exampleRenaming.topic "x/y" = "$SYS/y" by decide +kernel]
      rfl
    refine ⟨(k "b" _ _ "x" "x/y" [1, 2] ?_ ?_ ?_ rfl e1 (by rw [e1]; decide +kernel)).2,
      (k "a" _ _ "x" "$SYS/y" [] ?_ ?_ ?_ rfl e2 (by rw [e2]; decide +kernel)).2, by rw [e2]; decide +kernel⟩ <;> (unfold Fits; decide +kernel)

-- C174_clients: these clients and the renamed ones
example (env : Env) (evs : List ClientEvent) (out : ConnId → List ServerEvent) : ∃ n : ConnId → Nat,
    (CanServe env (namedPeers n id) evs out →
      CanServe env (namedPeers n exampleRenaming.client) (evs.map exampleRenaming.event) fun d => (out d).map exampleRenaming.sent) := by
  obtain ⟨n, hn⟩ := C174_clients env exampleRenaming exampleRenaming_faithful evs out
  refine ⟨n, (hn (namedPeers n id) (namedPeers n exampleRenaming.client) namedPackets (fun c => ⟨(by decide +kernel : "u" = exampleRenaming.id "u"), rfl⟩)
    (fun c => by simp [namedPeers]) (fun c => by simp [namedPeers]) (fun c => ⟨(named_sendable c).1, (named_sendable c).2.1⟩)
    (fun c => (named_sendable c).2.2) fun c => ⟨?_, ?_⟩).1⟩ <;> simp [namedPeers]

-- C174_names_iff: a renaming that undoes itself
example : ∃ r : Renaming, r.Faithful ∧ (∀ i, r.id (r.id i) = i) ∧ (∀ t, r.topic (r.topic t) = t) ∧ (∀ b, r.payload (r.payload b) = b)
    ∧ r.topic "x/y" = "$SYS/y" := by
  refine ⟨{ exampleRenaming with payload := id }, ⟨exampleRenaming_faithful.ids, exampleRenaming_faithful.empty, exampleRenaming_faithful.levels⟩,
    swap_swap (by decide), fun t => ?_, fun _ => rfl, by decide +kernel⟩
  have h : ∀ t, splitTopic (exampleRenaming.topic t) = (splitTopic t).map (swap "x" "$SYS") := fun t => by
    have h0 : ∀ l ∈ (splitTopic t).map (swap "x" "$SYS"), '/' ∉ l.toList := by
      intro l hl
      obtain ⟨k, hk, rfl⟩ := List.mem_map.mp hl
      unfold swap
      by_cases h1 : k = "x"
      · rw [if_pos h1]; decide
      · rw [if_neg h1]
        by_cases h2 : k = "$SYS"
        · rw [if_pos h2]; decide
        · rw [if_neg h2]; exact (levels_splitTopic t).noSlash k hk
    refine (levels_unique ⟨by simpa using (levels_splitTopic t).some, h0, ?_⟩).symm
    simp [exampleRenaming, List.map_map, Function.comp_def]
  have e : ((splitTopic t).map (swap "x" "$SYS")).map (fun l => (swap "x" "$SYS" l).toList) = (splitTopic t).map String.toList := by
    rw [List.map_map]
    refine List.map_congr_left fun l _ => ?_
    show (swap "x" "$SYS" (swap "x" "$SYS" l)).toList = l.toList
    rw [swap_swap (by decide)]
  show String.ofList (joinLevels ((splitTopic (exampleRenaming.topic t)).map fun l => (swap "x" "$SYS" l).toList)) = t
  rw [h t, e, (levels_splitTopic t).join, String.ofList_toList]

end Ratel
