/-
C179: clients with the same subscriptions get the same messages.
-/
import Verif.Proofs.Twins
import Verif.Props.System
import Verif.Props.Users

namespace Ratel

open Spec Sys

/-- C179. Take any execution of the broker that has come to rest, and two clients that at some moment are connected and hold the same subscriptions, each
as often as the other. If neither does anything but publish from then on, and nobody connects under their ids, they are sent the same messages from then
on, in the same order. -/
theorem C179_twins (env : Env) (peers : ConnId → Peer) (sched : List Step) (hi : (run env (init peers) sched).handler = .idle)
    (pre post : List ClientEvent) (hlog : (run env (init peers) sched).log.map Prod.fst = pre ++ post) (c1 c2 : ClientId) (d1 d2 : ConnId)
    (h1 : ReachedOn env.auth pre c1 d1) (h2 : ReachedOn env.auth pre c2 d2) (hsame : ∀ f, (held pre).count (c1, f) = (held pre).count (c2, f))
    (hq : ∀ ev ∈ post, clientOf ev = c1 ∨ clientOf ev = c2 → isPublish ev = true) :
    ∃ ms : List PublishPacket,
      messagesOf ((run env (init peers) sched).conns d1).delivered = messagesOf (Broker.start.outputs env.auth pre d1) ++ ms
      ∧ messagesOf ((run env (init peers) sched).conns d2).delivered = messagesOf (Broker.start.outputs env.auth pre d2) ++ ms := by
  obtain ⟨b, hb, _, ho⟩ := idle_rest (inv_run env peers sched).serves hi
  rw [show (run env (init peers) sched).served = pre ++ post from hlog] at hb ho
  have hid : ∀ ev ∈ pre ++ post, ∀ ev' ∈ pre ++ post, ∀ d, From d ev → From d ev' → clientOf ev = clientOf ev' := by
    obtain ⟨_, hid⟩ := C47_identity env peers sched
    rw [hlog] at hid
    intro ev hev ev' hev' d hf hf'
    have m1 : ev ∈ (pre ++ post ++ (run env (init peers) sched).events).filter (From d) :=
      List.mem_filter.mpr ⟨List.mem_append_left _ hev, by simpa using hf⟩
    have m2 : ev' ∈ (pre ++ post ++ (run env (init peers) sched).events).filter (From d) :=
      List.mem_filter.mpr ⟨List.mem_append_left _ hev', by simpa using hf'⟩
    rcases hid d with h0 | ⟨q, ps, n, _, h0⟩
    · rw [h0] at m1; cases m1
    · have key : ∀ e, e ∈ (pre ++ post ++ (run env (init peers) sched).events).filter (From d) →
          clientOf e = if q.clientId = "" then (peers d).uuid else q.clientId := by
        intro e he
        rw [h0] at he
        rcases List.mem_cons.mp he with rfl | he
        · rfl
        · obtain ⟨p, _, rfl⟩ := List.mem_map.mp he
          rfl
      rw [key ev m1, key ev' m2]
  rw [after_append] at hb
  obtain ⟨b0, hb0, hb1⟩ := Option.bind_eq_some_iff.mp hb
  have conn : ∀ {c d}, ReachedOn env.auth pre c d → ∃ p addr, .connected p addr d ∈ pre ∧ p.clientId = c := by
    rintro c d ⟨l, p, addr, r, rfl, hp, _⟩
    exact ⟨p, addr, by simp, hp⟩
  have alone : ∀ {c d}, ReachedOn env.auth pre c d → Twins.Alone b0 c d := by
    intro c d h x
    rw [after_session hb0]
    refine ⟨fun hx => ?_, fun e => e ▸ h⟩
    obtain ⟨p, addr, m, hp⟩ := conn h
    obtain ⟨p', addr', m', hp'⟩ := conn hx
    rw [← hp, ← hp']
    exact hid _ (List.mem_append_left _ m') _ (List.mem_append_left _ m) d rfl rfl
  have hsub : b0.subs = held pre := after_subs hb0
  have twin : Twins.Twin c1 c2 d1 d2 b0 := ⟨alone h1, alone h2, fun f => by rw [hsub]; exact hsame f⟩
  have quiet : ∀ ev ∈ post, Twins.Quiet c1 c2 d1 d2 ev := by
    intro ev hev
    by_cases hp : isPublish ev = true
    · exact .inl hp
    · have own : ∀ {c d}, ReachedOn env.auth pre c d → From d ev → clientOf ev = c := by
        intro c d h hf
        obtain ⟨p, addr, m, hp⟩ := conn h
        rw [← hp]
        exact hid _ (List.mem_append_right _ hev) _ (List.mem_append_left _ m) d hf rfl
      exact .inr ⟨fun e => hp (hq ev hev (.inl e)), fun e => hp (hq ev hev (.inr e)), fun hf => hp (hq ev hev (.inl (own h1 hf))),
        fun hf => hp (hq ev hev (.inr (own h2 hf)))⟩
  refine ⟨messagesOf (b0.outputs env.auth post d1), ?_, ?_⟩
  · rw [ho, outputs_append, hb0, messagesOf_append]
  · rw [ho, outputs_append, hb0, messagesOf_append, twin.outputs env.auth quiet]

/-- Two subscribers and a publisher. -/
def twinPeers : ConnId → Peer := fun c =>
  ⟨someAddr, "u", [clientBytes (if c = 0 then [hello "s", .subscribe 1 [("t", .atMostOnce)]] else if c = 1 then [hello "r", .subscribe 9 [("t", .atLeastOnce)]]
    else if c = 2 then [hello "p", .publish ⟨none, false, ⟨"t", [7], .atMostOnce, false⟩⟩] else [])], .silence, []⟩

/-- They come one after the other. -/
def twinSteps : List Step :=
  [.read 0, .read 0, .handler 0, .handler 0, .read 0, .read 0, .handler 0, .handler 0, .read 1, .read 1, .handler 0, .handler 0, .read 1, .read 1,
    .handler 0, .handler 0, .read 2, .read 2, .handler 0, .handler 0, .read 2, .read 2, .handler 0, .handler 0, .handler 0]

-- they are sent the message both
example : messagesOf ((run exampleEnv (init twinPeers) twinSteps).conns 0).delivered = [⟨none, false, ⟨"t", [7], .atMostOnce, false⟩⟩]
    ∧ messagesOf ((run exampleEnv (init twinPeers) twinSteps).conns 1).delivered = [⟨none, false, ⟨"t", [7], .atMostOnce, false⟩⟩] := by decide +kernel

/-- What happens until both have subscribed. -/
def twinPre : List ClientEvent :=
  [.connected ⟨.mqtt3, "s", 60, true, none, none, none⟩ someAddr 0, .controlPacket "s" (.subscribe ⟨1, [⟨"t", .atMostOnce⟩]⟩) 0,
    .connected ⟨.mqtt3, "r", 60, true, none, none, none⟩ someAddr 1, .controlPacket "r" (.subscribe ⟨9, [⟨"t", .atLeastOnce⟩]⟩) 1]

example := C179_twins exampleEnv twinPeers twinSteps (by decide +kernel) twinPre
  [.connected ⟨.mqtt3, "p", 60, true, none, none, none⟩ someAddr 2, .controlPacket "p" (.publish ⟨none, false, ⟨"t", [7], .atMostOnce, false⟩⟩) 2]
  (by decide +kernel) "s" "r" 0 1
  ⟨[], _, _, _, rfl, rfl, rfl, fun ev hev => by
    simp only [List.mem_cons, List.not_mem_nil, or_false] at hev
    rcases hev with rfl | rfl | rfl <;> simp [ChangesSession]⟩
  ⟨twinPre.take 2, _, _, _, rfl, rfl, rfl, fun ev hev => by
    simp only [List.mem_cons, List.not_mem_nil, or_false] at hev
    rcases hev with rfl
    simp [ChangesSession]⟩
  (fun f => by
    have e : held twinPre = [("s", "t"), ("r", "t")] := by simp [held, twinPre, subOps, Entries.counted, Entries.counting]
    rw [e]
    by_cases hf : "t" = f <;> simp [List.count_cons, hf])
  (fun ev hev h => by
    simp only [List.mem_cons, List.not_mem_nil, or_false] at hev
    rcases hev with rfl | rfl
    · rcases h with h | h
      · exact absurd h (by decide : ("p" : String) ≠ "s")
      · exact absurd h (by decide : ("p" : String) ≠ "r")
    · rfl)

end Ratel
