/-
C176: only races that matter matter.
-/
import Verif.Spec.Races
import Verif.Spec.Alike
import Verif.Proofs.Races
import Verif.Props.Orders
import Verif.Props.Clauses

namespace Ratel

open Spec Sys

/-- C176, for events taken one after the other. If neighbouring events that have nothing to do with each other change places, any number of times, every
connection is sent the same. -/
theorem C176_order (auth : IdentityProvider) (evs evs' : List ClientEvent) (h : SameUpToRaces auth evs evs')
    (hc : ∀ p addr c, .connected p addr c ∈ evs → login auth p ≠ .incomplete) (d : ConnId) :
    Broker.start.outputs auth evs' d = Broker.start.outputs auth evs d :=
  (Races.same_outputs h).2.2 (Races.whole_of hc) d

/-- C176. Whatever clients there are, if their sockets take enough writes: if the broker can take some events in one order, sending the connections
`out`, then it can take them in every order in which neighbouring events that have nothing to do with each other have changed places, sending the same.
And it can crash with a further event after the one order if and only if it can after the other. -/
theorem C176_races (env : Env) (evs evs' : List ClientEvent) (h : SameUpToRaces env.auth evs evs') (ev : ClientEvent)
    (out : ConnId → List ServerEvent) : ∃ n : ConnId → Nat, ∀ peers : ConnId → Peer, (∀ c, n c ≤ (peers c).script.length) →
    (CanServe env peers evs out ↔ CanServe env peers evs' out) ∧ (CanCrash env peers (evs ++ [ev]) ↔ CanCrash env peers (evs' ++ [ev])) := by
  have serve : ∀ {evs evs'}, SameUpToRaces env.auth evs evs' → ∃ n : ConnId → Nat, ∀ peers : ConnId → Peer,
      (∀ c, n c ≤ (peers c).script.length) → CanServe env peers evs out → CanServe env peers evs' out := by
    intro evs evs' h
    obtain ⟨n1, hn1⟩ := C77_any_length_iff env evs
    obtain ⟨n2, hn2⟩ := C77_any_possible env evs'
    refine ⟨fun c => max (n1 c) (n2 c), fun peers hn => ?_⟩
    replace hn : ∀ c, max (n1 c) (n2 c) ≤ (peers c).script.length := hn
    rintro ⟨sched, h1, h2, h3⟩
    have g := (hn1 peers fun c => by have := hn c; omega).mp ⟨sched, h1, h2⟩
    obtain ⟨sched', k1, k2, k3⟩ := hn2 peers (fun c => by have := hn c; omega) (Races.possible_same h g)
    refine ⟨sched', k1, k2, fun d => ?_⟩
    obtain ⟨b, _, _, ho⟩ := idle_rest (inv_run env peers sched).serves h1
    have hd := ho d
    rw [show (run env (init peers) sched).served = evs from h2] at hd
    rw [(k3 d).1, C176_order env.auth evs evs' h g.complete, ← hd, h3 d]
  have crash : ∀ {evs evs'}, SameUpToRaces env.auth evs evs' → ∃ n : ConnId → Nat, ∀ peers : ConnId → Peer,
      (∀ c, n c ≤ (peers c).script.length) → CanCrash env peers (evs ++ [ev]) → CanCrash env peers (evs' ++ [ev]) := by
    intro evs evs' h
    obtain ⟨n1, hn1⟩ := C135_any_length_iff env (evs ++ [ev])
    obtain ⟨n2, hn2⟩ := C135_any_length_iff env (evs' ++ [ev])
    refine ⟨fun c => max (n1 c) (n2 c), fun peers hn hcr => ?_⟩
    replace hn : ∀ c, max (n1 c) (n2 c) ≤ (peers c).script.length := hn
    obtain ⟨g1, g2, g3, g4⟩ := (hn1 peers fun c => by have := hn c; omega).mp hcr
    rw [List.dropLast_concat] at g1
    obtain ⟨s1, s2, s3⟩ := Races.same_outputs h
    have p' := Races.possible_same h g1
    refine (hn2 peers fun c => by have := hn c; omega).mpr ⟨by rw [List.dropLast_concat]; exact p', fun c => ?_, fun x hx => ?_, ?_⟩
    · rw [List.filter_append, s2, ← List.filter_append]; exact g2 c
    · refine g3 x ?_
      rcases List.mem_append.mp hx with hx | hx
      · exact List.mem_append_left _ ((s1 x).mp hx)
      · exact List.mem_append_right _ hx
    · obtain ⟨pre, ev', he, g4⟩ := g4
      obtain ⟨rfl, he⟩ := List.append_inj' he rfl
      obtain rfl : ev = ev' := by simpa using he
      refine ⟨evs', ev, rfl, ?_⟩
      rcases g4 with g4 | ⟨id, p, tx, rfl, k1, k2⟩
      · exact .inl g4
      · refine .inr ⟨id, p, tx, rfl, k1, ?_⟩
        obtain ⟨b, hb⟩ := Option.isSome_iff_exists.mp (after_isSome g1.complete Broker.start)
        refine (disconnect_turnedAway ?_).1
        rw [s3 (Races.whole_of g1.complete)]
        exact turnedAway_disconnect hb k2
  obtain ⟨n1, h1⟩ := serve h
  obtain ⟨n2, h2⟩ := serve (Races.same_symm h)
  obtain ⟨n3, h3⟩ := crash h
  obtain ⟨n4, h4⟩ := crash (Races.same_symm h)
  refine ⟨fun c => max (max (n1 c) (n2 c)) (max (n3 c) (n4 c)), fun peers hn => ?_⟩
  replace hn : ∀ c, max (max (n1 c) (n2 c)) (max (n3 c) (n4 c)) ≤ (peers c).script.length := hn
  exact ⟨⟨h1 peers fun c => by have := hn c; omega, h2 peers fun c => by have := hn c; omega⟩,
    h3 peers fun c => by have := hn c; omega, h4 peers fun c => by have := hn c; omega⟩

/-- Two subscribers and two publishers have come. -/
def quartet (addr : SocketAddr) : List ClientEvent :=
  [.connected ⟨.mqtt3, "s", 60, true, none, none, none⟩ addr 0, .controlPacket "s" (.subscribe ⟨1, [⟨"a", .atMostOnce⟩]⟩) 0,
    .connected ⟨.mqtt3, "t", 60, true, none, none, none⟩ addr 1, .controlPacket "t" (.subscribe ⟨1, [⟨"b", .atMostOnce⟩]⟩) 1,
    .connected ⟨.mqtt3, "p", 60, true, none, none, none⟩ addr 2, .connected ⟨.mqtt3, "q", 60, true, none, none, none⟩ addr 3]

theorem quartet_hears {auth : IdentityProvider} {addr : SocketAddr} {t : String} {d : ConnId}
    (h : HearsTopic auth (quartet addr) t d) : (t = "a" ∧ d = 0) ∨ (t = "b" ∧ d = 1) := by
  obtain ⟨c, f, h1, h2, h3⟩ := h
  have ha : PlainTopic "a" := by unfold PlainTopic; decide +kernel
  have hb : PlainTopic "b" := by unfold PlainTopic; decide +kernel
  have e : held (quartet addr) = [("s", "a"), ("t", "b")] := by simp [held, quartet, subOps, Entries.counted, Entries.counting]
  rw [e] at h1
  have hs : Broker.start.after auth (quartet addr) = some _ := rfl
  rw [← after_session hs] at h3
  simp only [List.mem_cons, Prod.mk.injEq, List.not_mem_nil, or_false] at h1
  rcases h1 with ⟨rfl, rfl⟩ | ⟨rfl, rfl⟩
  · exact .inl ⟨((C125_matches_itself _ _ ha).mp h2).symm, by injection h3.symm⟩
  · exact .inr ⟨((C125_matches_itself _ _ hb).mp h2).symm, by injection h3.symm⟩

/-- A message. -/
def shortNote (topic : String) : ControlPacket := .publish ⟨none, false, ⟨topic, [], .atMostOnce, false⟩⟩

/-- Two messages for different subscribers may change places. -/
theorem quartet_independent (auth : IdentityProvider) (addr : SocketAddr) :
    Independent auth (quartet addr) (.controlPacket "p" (shortNote "a") 2) (.controlPacket "q" (shortNote "b") 3) := by
  refine ⟨by decide, fun d h => ?_, fun t _ h => h, fun t _ h => h⟩
  rcases h with ⟨h1 | ⟨t, ht, h1⟩, h2 | ⟨u, hu, h2⟩⟩
  · have h1 : (2 : Nat) = d := h1
    have h2 : (3 : Nat) = d := h2
    omega
  · have h1 : (2 : Nat) = d := h1
    subst h1
    rcases quartet_hears h2 with ⟨_, h⟩ | ⟨_, h⟩ <;> cases h
  · have h2 : (3 : Nat) = d := h2
    subst h2
    rcases quartet_hears h1 with ⟨_, h⟩ | ⟨_, h⟩ <;> cases h
  · cases ht
    cases hu
    rcases quartet_hears h1 with ⟨_, k1⟩ | ⟨k1, _⟩
    · rcases quartet_hears h2 with ⟨k2, _⟩ | ⟨_, k2⟩
      · exact absurd k2 (by decide)
      · rw [k1] at k2; cases k2
    · exact absurd k1 (by decide)

example (env : Env) (ev : ClientEvent) (out : ConnId → List ServerEvent) :=
  C176_races env _ _ (.swap _ (quartet someAddr) [] _ _ (.refl _) (quartet_independent env.auth someAddr)) ev out

-- a message and the arrival of somebody new, or a PINGREQ, or a subscription to something else
example (auth : IdentityProvider) (addr : SocketAddr) (ev : ClientEvent)
    (hev : ev = .connected ⟨.mqtt3, "n", 60, true, none, none, none⟩ addr 4 ∨ ev = .controlPacket "t" .pingReq 1
      ∨ ev = .controlPacket "t" (.subscribe ⟨7, [⟨"c", .atMostOnce⟩]⟩) 1) : Independent auth (quartet addr) (.controlPacket "p" (shortNote "a") 2) ev := by
  have hc : PlainTopic "c" := by unfold PlainTopic; decide +kernel
  have key : ∀ k : Nat, (k = 4 ∨ k = 1) → ∀ d : ConnId, Involves auth (quartet addr) (.controlPacket "p" (shortNote "a") 2) d → ¬ k = d := by
    rintro k hk d (h | ⟨t, ht, h⟩) rfl
    · have h : (2 : Nat) = k := h
      omega
    · cases ht
      rcases quartet_hears h with ⟨_, h⟩ | ⟨h, _⟩
      · have h : k = (0 : Nat) := h
        omega
      · exact absurd h (by decide)
  rcases hev with rfl | rfl | rfl
  · refine ⟨(by decide : "p" ≠ "n"), fun d h => ?_, fun t _ h => ?_, fun t ht => by cases ht⟩
    · rcases h.2 with h2 | ⟨t, ht, _⟩
      · exact key 4 (.inl rfl) d h.1 h2
      · cases ht
    · obtain ⟨f, hf, _⟩ := h
      simp [held, quartet, subOps, Entries.counted, Entries.counting] at hf
  · refine ⟨by decide, fun d h => ?_, fun t _ h => h, fun t ht => by cases ht⟩
    rcases h.2 with h2 | ⟨t, ht, _⟩
    · exact key 1 (.inr rfl) d h.1 h2
    · cases ht
  · refine ⟨by decide, fun d h => ?_, fun t ht h => ?_, fun t ht => by cases ht⟩
    · rcases h.2 with h2 | ⟨t, ht, _⟩
      · exact key 1 (.inr rfl) d h.1 h2
      · cases ht
    · cases ht
      obtain ⟨x, hx, hm⟩ := h
      obtain rfl : x = ⟨"c", .atMostOnce⟩ := by simpa using hx
      exact absurd ((C125_matches_itself _ _ hc).mp hm) (by decide)

-- whereas the order of a message and a subscription to its topic does matter
example (auth : IdentityProvider) (addr : SocketAddr) :
    Broker.start.outputs auth [.connected ⟨.mqtt3, "s", 60, true, none, none, none⟩ addr 0, .controlPacket "s" (.subscribe ⟨1, [⟨"a", .atMostOnce⟩]⟩) 0,
        .controlPacket "p" (shortNote "a") 1] 0
      ≠ Broker.start.outputs auth [.connected ⟨.mqtt3, "s", 60, true, none, none, none⟩ addr 0, .controlPacket "p" (shortNote "a") 1,
        .controlPacket "s" (.subscribe ⟨1, [⟨"a", .atMostOnce⟩]⟩) 0] 0 := by
  have ha : PlainTopic "a" := by unfold PlainTopic; decide +kernel
  have hw : 0 < ways "a" "a" := ways_pos.mpr ((C125_matches_itself _ _ ha).mpr rfl)
  intro h
  have h := congrArg List.length h
  simp [Broker.outputs, Broker.step, Broker.packet, shortNote, login, Spec.to, Broker.copiesTo, Broker.start] at h
  omega

end Ratel
