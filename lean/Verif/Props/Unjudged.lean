/-
Whether a login is refused makes no difference to others: C35 as a whole.
-/
import Verif.Props.Never

namespace Ratel

open Spec Sys

/-- Two brokers that differ in the sessions of some clients only, none of which is reached on connection `d`. -/
structure Differ (C : ClientId → Prop) (d : ConnId) (b b' : Broker) : Prop where
  subs : b.subs = b'.subs
  others : ∀ c, ¬ C c → b.session c = b'.session c
  left : ∀ c, C c → b.session c ≠ some d
  right : ∀ c, C c → b'.session c ≠ some d

theorem differ_copies {C : ClientId → Prop} {d : ConnId} {b b' : Broker} (h : Differ C d b b') (topic : String) :
    b.copiesTo d topic = b'.copiesTo d topic := by
  unfold Broker.copiesTo
  rw [h.subs]
  congr 2
  refine List.filter_congr fun e _ => ?_
  by_cases hc : C e.1
  · rw [decide_eq_false (h.left _ hc), decide_eq_false (h.right _ hc)]
  · rw [h.others _ hc]

/-- Those clients do not use the connection. -/
def KeepsOff (C : ClientId → Prop) (d : ConnId) : ClientEvent → Prop
  | .connected p _ tx => tx = d → ¬ C p.clientId
  | .controlPacket id _ tx => tx = d → ¬ C id
  | _ => True

/-- The logins of the others are judged alike. -/
def JudgedAlike (C : ClientId → Prop) (auth auth' : IdentityProvider) : ClientEvent → Prop
  | .connected p _ _ => ¬ C p.clientId → login auth p = login auth' p
  | _ => True

theorem differ_forget {C : ClientId → Prop} {d : ConnId} {b b' : Broker} (h : Differ C d b b') (op : SubOp) :
    Differ C d (b.forget op) (b'.forget op) := by
  refine ⟨?_, fun c hc => ?_, fun c hc => ?_, fun c hc => ?_⟩
  · simp only [Broker.forget, h.subs]
  · simp only [Broker.forget, h.others c hc]
  · simp only [Broker.forget]; split
    · simp
    · exact h.left c hc
  · simp only [Broker.forget]; split
    · simp
    · exact h.right c hc

theorem to_other {c d : ConnId} (h : c ≠ d) (evs : List ServerEvent) : Spec.to c evs d = [] := if_neg fun e => h e.symm

theorem differ_step {C : ClientId → Prop} {d : ConnId} {auth auth' : IdentityProvider} {b b' b₁ b₁' : Broker} {ev : ClientEvent} {out out' : Outputs}
    (h : Differ C d b b') (hk : KeepsOff C d ev) (hj : JudgedAlike C auth auth' ev)
    (h1 : b.step auth ev = some (b₁, out)) (h2 : b'.step auth' ev = some (b₁', out')) : Differ C d b₁ b₁' ∧ out d = out' d := by
  cases ev with
  | connected p a tx =>
    by_cases hc : C p.clientId
    · have htx : tx ≠ d := fun e => hk e hc
      have hne : some tx ≠ some d := fun e => htx (Option.some.inj e)
      have key : ∀ {auth : IdentityProvider} {b b₁ : Broker} {out : Outputs}, b.step auth (.connected p a tx) = some (b₁, out) →
          b₁.subs = b.subs ∧ (∀ c, c ≠ p.clientId → b₁.session c = b.session c) ∧ (b₁.session p.clientId = some tx ∨ b₁.session p.clientId = b.session p.clientId)
          ∧ out d = [] := by
        intro auth b b₁ out hs
        simp only [Broker.step] at hs
        split at hs
        · cases hs; exact ⟨rfl, fun c hc => if_neg hc, .inl (if_pos rfl), to_other htx _⟩
        · cases hs; exact ⟨rfl, fun _ _ => rfl, .inr rfl, to_other htx _⟩
        · cases hs
      obtain ⟨k1, k2, k3, k4⟩ := key h1
      obtain ⟨l1, l2, l3, l4⟩ := key h2
      refine ⟨⟨by rw [k1, l1, h.subs], fun c hcc => ?_, fun c hcc => ?_, fun c hcc => ?_⟩, by rw [k4, l4]⟩
      · have : c ≠ p.clientId := fun e => hcc (e ▸ hc)
        rw [k2 c this, l2 c this, h.others c hcc]
      · by_cases e : c = p.clientId
        · subst e
          rcases k3 with k3 | k3 <;> rw [k3]
          · exact hne
          · exact h.left _ hcc
        · rw [k2 c e]; exact h.left c hcc
      · by_cases e : c = p.clientId
        · subst e
          rcases l3 with l3 | l3 <;> rw [l3]
          · exact hne
          · exact h.right _ hcc
        · rw [l2 c e]; exact h.right c hcc
    · have hl : login auth p = login auth' p := hj hc
      simp only [Broker.step] at h1 h2
      rw [← hl] at h2
      cases hlog : login auth p with
      | accepted =>
        rw [hlog] at h1 h2
        cases h1; cases h2
        refine ⟨⟨h.subs, fun c hcc => ?_, fun c hcc => ?_, fun c hcc => ?_⟩, rfl⟩
        · simp only [h.others c hcc]
        · simp only [if_neg (show c ≠ p.clientId from fun e => hc (e ▸ hcc))]; exact h.left c hcc
        · simp only [if_neg (show c ≠ p.clientId from fun e => hc (e ▸ hcc))]; exact h.right c hcc
      | refused => rw [hlog] at h1 h2; cases h1; cases h2; exact ⟨h, rfl⟩
      | incomplete => rw [hlog] at h1; cases h1
  | controlPacket id p tx =>
    simp only [Broker.step, Option.some.injEq] at h1 h2
    cases p with
    | publish q =>
      cases h1; cases h2
      exact ⟨h, by simp only [differ_copies h]⟩
    | subscribe q =>
      cases h1; cases h2
      exact ⟨⟨by simp only [h.subs], h.others, h.left, h.right⟩, rfl⟩
    | unsubscribe q =>
      cases h1; cases h2
      exact ⟨⟨by simp only [h.subs], h.others, h.left, h.right⟩, rfl⟩
    | pingReq =>
      cases h1; cases h2
      refine ⟨h, ?_⟩
      by_cases htx : tx = d
      · simp only [h.others id (hk htx)]
      · rw [to_other htx, to_other htx]
    | disconnect => cases h1; cases h2; exact ⟨differ_forget h _, rfl⟩
    | _ => cases h1; cases h2; exact ⟨h, rfl⟩
  | disconnected id => cases h1; cases h2; exact ⟨h, rfl⟩
  | connectionLost id => cases h1; cases h2; exact ⟨differ_forget h _, rfl⟩

theorem differ_outputs {C : ClientId → Prop} {d : ConnId} {auth auth' : IdentityProvider} (evs : List ClientEvent) (b b' : Broker) (h : Differ C d b b')
    (hk : ∀ ev ∈ evs, KeepsOff C d ev) (hj : ∀ ev ∈ evs, JudgedAlike C auth auth' ev)
    (h1 : (b.after auth evs).isSome) (h2 : (b'.after auth' evs).isSome) : b.outputs auth evs d = b'.outputs auth' evs d := by
  induction evs generalizing b b' with
  | nil => rfl
  | cons ev evs ih =>
    rw [Broker.after] at h1 h2
    rw [Broker.outputs, Broker.outputs]
    cases hs : b.step auth ev with
    | none => rw [hs] at h1; cases h1
    | some x =>
      cases hs' : b'.step auth' ev with
      | none => rw [hs'] at h2; cases h2
      | some x' =>
        rw [hs] at h1
        rw [hs'] at h2
        obtain ⟨k1, k2⟩ := differ_step h (hk ev List.mem_cons_self) (hj ev List.mem_cons_self) hs hs'
        show x.2 d ++ x.1.outputs auth evs d = x'.2 d ++ x'.1.outputs auth' evs d
        rw [k2, ih x.1 x'.1 k1 (fun e he => hk e (List.mem_cons_of_mem _ he)) (fun e he => hj e (List.mem_cons_of_mem _ he)) h1 h2]

/-- C35 is violated, in every execution: whether the logins of some clients are refused or accepted makes no difference to anybody else. Two executions with the
same events, under identity providers that judge the clients outside `C` alike and those of `C` in whatever way, send the same to every connection that the clients
of `C` do not use themselves. So all a refused client publishes reaches the others as if it had been let in. -/
theorem C35_ignored_fails (C : ClientId → Prop) (env env' : Env) (peers peers' : ConnId → Peer) (sched sched' : List Step)
    (hi : (run env (init peers) sched).handler = .idle) (hi' : (run env' (init peers') sched').handler = .idle)
    (he : (run env (init peers) sched).log.map Prod.fst = (run env' (init peers') sched').log.map Prod.fst) (d : ConnId)
    (hk : ∀ ev ∈ (run env (init peers) sched).log.map Prod.fst, KeepsOff C d ev)
    (hj : ∀ ev ∈ (run env (init peers) sched).log.map Prod.fst, JudgedAlike C env.auth env'.auth ev) :
    ((run env (init peers) sched).conns d).delivered = ((run env' (init peers') sched').conns d).delivered := by
  obtain ⟨_, a1, _, h1⟩ := idle_rest (inv_run env peers sched).serves hi
  obtain ⟨_, a2, _, h2⟩ := idle_rest (inv_run env' peers' sched').serves hi'
  rw [h1 d, h2 d]
  unfold served at a1 a2 ⊢
  rw [← he] at a2 ⊢
  exact differ_outputs _ _ _ ⟨rfl, fun _ _ => rfl, fun _ _ => by simp [Broker.start], fun _ _ => by simp [Broker.start]⟩ hk hj (by rw [a1]; rfl) (by rw [a2]; rfl)

/-- An environment in which every login is right. -/
def trustingEnv : Env := { exampleEnv with auth := fun _ _ => .ok () }

/-- Connection 0 subscribes; connection 1 gives a login and publishes. -/
def lockedPeers : ConnId → Peer := fun c =>
  if c = 0 then ⟨someAddr, "u0", [clientBytes [.connect ⟨"MQTT", 4, true, 60, "v", none, none, none⟩, .subscribe 7 [("a", .atMostOnce)]]], .silence, []⟩
  else ⟨someAddr, "u1", [clientBytes [.connect ⟨"MQTT", 4, true, 60, "w", none, some "u", some "p"⟩, .publish ⟨none, false, ⟨"a", [1], .atMostOnce, false⟩⟩]], .silence, []⟩

def lockedSteps : List Step :=
  [.read 0, .read 0, .handler 0, .handler 0, .read 0, .read 0, .handler 0, .handler 0,
   .read 1, .read 1, .handler 0, .handler 0, .handler 0, .read 1, .read 1, .handler 0, .handler 0]

/-- C35: the login refused and accepted, the events the same. -/
example : (run exampleEnv (init lockedPeers) lockedSteps).handler = .idle ∧ (run trustingEnv (init lockedPeers) lockedSteps).handler = .idle
    ∧ (run exampleEnv (init lockedPeers) lockedSteps).log.map Prod.fst = (run trustingEnv (init lockedPeers) lockedSteps).log.map Prod.fst
    ∧ ((run exampleEnv (init lockedPeers) lockedSteps).conns 0).delivered.length = 3
    ∧ ((run exampleEnv (init lockedPeers) lockedSteps).conns 1).delivered ≠ ((run trustingEnv (init lockedPeers) lockedSteps).conns 1).delivered := by
  decide +kernel

instance (C : ClientId → Prop) [DecidablePred C] (d : ConnId) (ev : ClientEvent) : Decidable (KeepsOff C d ev) := by
  unfold KeepsOff; split <;> infer_instance

instance (C : ClientId → Prop) [DecidablePred C] (auth auth' : IdentityProvider) (ev : ClientEvent) : Decidable (JudgedAlike C auth auth' ev) := by
  unfold JudgedAlike; split <;> infer_instance

/-- C35: the publisher keeps off connection 0, and the subscriber's login is judged alike. -/
example : (∀ ev ∈ (run exampleEnv (init lockedPeers) lockedSteps).log.map Prod.fst, KeepsOff (· = "w") 0 ev)
    ∧ (∀ ev ∈ (run exampleEnv (init lockedPeers) lockedSteps).log.map Prod.fst, JudgedAlike (· = "w") exampleEnv.auth trustingEnv.auth ev) := by
  decide +kernel

end Ratel
