/-
C180: of the past matters who is connected and who holds which subscriptions, all of it and nothing else.
-/
import Verif.Proofs.Past
import Verif.Props.System

namespace Ratel

open Spec Sys

/-- C180, for events taken one after the other. After two histories that leave the broker running it does the same from then on, whatever happens then,
exactly if the same clients are reached on the same connections and hold the same subscriptions equally often. -/
theorem C180_past_iff (auth : IdentityProvider) (evs evs' : List ClientEvent) (h : (Broker.start.after auth evs).isSome)
    (h' : (Broker.start.after auth evs').isSome) :
    (∀ more d, ∃ out, Broker.start.outputs auth (evs ++ more) d = Broker.start.outputs auth evs d ++ out
      ∧ Broker.start.outputs auth (evs' ++ more) d = Broker.start.outputs auth evs' d ++ out)
    ↔ (∀ c d, ReachedOn auth evs c d ↔ ReachedOn auth evs' c d) ∧ (held evs).Perm (held evs') := by
  obtain ⟨b, hb⟩ := Option.isSome_iff_exists.mp h
  obtain ⟨b', hb'⟩ := Option.isSome_iff_exists.mp h'
  have hs : b.subs = held evs := after_subs hb
  have hs' : b'.subs = held evs' := after_subs hb'
  simp only [outputs_append, hb, hb', List.append_cancel_left_eq, exists_eq_left']
  rw [← hs, ← hs', List.perm_iff_count]
  simp only [← after_session hb, ← after_session hb']
  constructor
  · intro hall
    have ha := (Past.alike_iff auth b b').mp fun evs d => (hall evs d).symm
    exact ⟨fun c d => by rw [ha.session], ha.subs⟩
  · rintro ⟨h1, h2⟩ more d
    exact (Past.alike_outputs ⟨fun c => Option.ext (h1 c), h2⟩ auth more d).symm

/-- C180. Take two executions of the broker that have come to rest, with any clients, and a moment in each, with the same clients reached on the same
connections and the same subscriptions held equally often. If the broker has handled the same events since then, every connection has been sent the same
since then, in the same order. -/
theorem C180_executions (env : Env) (peers peers' : ConnId → Peer) (sched sched' : List Step) (h : (run env (init peers) sched).handler = .idle)
    (h' : (run env (init peers') sched').handler = .idle) (pre pre' more : List ClientEvent)
    (hl : (run env (init peers) sched).log.map Prod.fst = pre ++ more) (hl' : (run env (init peers') sched').log.map Prod.fst = pre' ++ more)
    (hr : ∀ c d, ReachedOn env.auth pre c d ↔ ReachedOn env.auth pre' c d) (hh : (held pre).Perm (held pre')) (d : ConnId) :
    ∃ out, ((run env (init peers) sched).conns d).delivered = Broker.start.outputs env.auth pre d ++ out
      ∧ ((run env (init peers') sched').conns d).delivered = Broker.start.outputs env.auth pre' d ++ out := by
  obtain ⟨b, hb, _, ho⟩ := idle_rest (inv_run env peers sched).serves h
  obtain ⟨b', hb', _, ho'⟩ := idle_rest (inv_run env peers' sched').serves h'
  rw [show (run env (init peers) sched).served = pre ++ more from hl] at hb ho
  rw [show (run env (init peers') sched').served = pre' ++ more from hl'] at hb' ho'
  rw [after_append] at hb hb'
  obtain ⟨b0, hb0, _⟩ := Option.bind_eq_some_iff.mp hb
  obtain ⟨b0', hb0', _⟩ := Option.bind_eq_some_iff.mp hb'
  rw [ho, ho']
  exact (C180_past_iff env.auth pre pre' (by simp [hb0]) (by simp [hb0'])).mpr ⟨hr, hh⟩ more d

/-- A subscriber that asks for these things, and a publisher. -/
def pastPeers (cs : List ClientPacket) : ConnId → Peer := fun c =>
  ⟨someAddr, "u", [clientBytes (if c = 0 then hello "s" :: cs else if c = 1 then [hello "p", .publish ⟨none, false, ⟨"t", [7], .atMostOnce, false⟩⟩] else [])],
    .silence, []⟩

/-- Connection `c` sends `n` packets, and they are handled. -/
def pastSteps (c : ConnId) (n : Nat) : List Step := (List.replicate n [.read c, .read c, .handler 0, .handler 0]).flatten

/-- One subscriber subscribes to "t" … -/
def pastShort : List ClientEvent :=
  [.connected ⟨.mqtt3, "s", 60, true, none, none, none⟩ someAddr 0, .controlPacket "s" (.subscribe ⟨1, [⟨"t", .atMostOnce⟩]⟩) 0]

/-- … the other to "u" as well, but thinks better of it. -/
def pastLong : List ClientEvent :=
  [.connected ⟨.mqtt3, "s", 60, true, none, none, none⟩ someAddr 0, .controlPacket "s" (.subscribe ⟨2, [⟨"u", .atMostOnce⟩, ⟨"t", .atLeastOnce⟩]⟩) 0,
    .controlPacket "s" (.unsubscribe ⟨3, ["u"]⟩) 0]

theorem past_reached (auth : IdentityProvider) (c : ClientId) (d : ConnId) : ReachedOn auth pastShort c d ↔ ReachedOn auth pastLong c d := by
  rw [← after_session (b := ⟨fun c => if c = "s" then some 0 else none, [("s", "t")]⟩)
      (by simp [Broker.after, Broker.step, Broker.packet, Broker.start, login, pastShort]) c d,
    ← after_session (b := ⟨fun c => if c = "s" then some 0 else none, [("s", "t")]⟩)
      (by simp [Broker.after, Broker.step, Broker.packet, Broker.start, login, pastLong, Entries.unsubscribe]) c d]

theorem past_held : held pastLong = held pastShort := by
  simp [held, pastLong, pastShort, subOps, Entries.counted, Entries.counting, Entries.unsubscribe]

-- they do the same from then on
example (auth : IdentityProvider) (more : List ClientEvent) (d : ConnId) :
    ∃ out, Broker.start.outputs auth (pastShort ++ more) d = Broker.start.outputs auth pastShort d ++ out
      ∧ Broker.start.outputs auth (pastLong ++ more) d = Broker.start.outputs auth pastLong d ++ out :=
  (C180_past_iff auth pastShort pastLong (by simp [Broker.after, Broker.step, login, pastShort]) (by simp [Broker.after, Broker.step, login, pastLong])).mpr
    ⟨past_reached auth, past_held ▸ List.Perm.refl _⟩ more d

-- two executions
example (d : ConnId) := C180_executions exampleEnv (pastPeers [.subscribe 1 [("t", .atMostOnce)]])
  (pastPeers [.subscribe 2 [("u", .atMostOnce), ("t", .atLeastOnce)], .unsubscribe 3 ["u"]]) (pastSteps 0 2 ++ pastSteps 1 2) (pastSteps 0 3 ++ pastSteps 1 2)
  (by decide +kernel) (by decide +kernel) pastShort pastLong
  [.connected ⟨.mqtt3, "p", 60, true, none, none, none⟩ someAddr 1, .controlPacket "p" (.publish ⟨none, false, ⟨"t", [7], .atMostOnce, false⟩⟩) 1]
  (by decide +kernel) (by decide +kernel) (past_reached _) (past_held ▸ List.Perm.refl _) d

end Ratel
