/-
C170: how much the broker writes to its log.
-/
import Verif.Proofs.LogSize
import Verif.Props.Orders
import Verif.Props.Slow
import Verif.Props.Logging

namespace Ratel

open Decoder Encoder Spec Sys

/-- What the packet handler logs at the levels up to INFO, for each execution: one record for a refused login, a lost client, a PINGREQ without a
session and a packet that clients do not send, one for each stale subscription a message meets, and nothing else. Everything else in the broker makes at most
one record per step. What is missing: a bound for messages, see `C170_flood_fails`. -/
theorem C170_records_partial (t : Texts) (env : Env) (peers : ConnId → Peer) (sched : List Step) (level : Level) (hl : level.rank ≤ Level.info.rank) :
    ((upTo level (transcript t env (init peers) sched)).filter ofHandler).length
        = noticed level env.auth Broker.start ((run env (init peers) sched).log.map Prod.fst)
    ∧ ∀ a, (∀ now, a ≠ .handler now) → (upTo level (records t env (run env (init peers) sched) a)).length ≤ 1 :=
  ⟨handler_count t env peers sched hl, fun a ha => other_records t hl env _ a ha⟩

theorem notices_le {level : Level} {auth : IdentityProvider} {b : Broker} (h : ∀ e ∈ b.subs, b.session e.1 ≠ none) (ev : ClientEvent) :
    notices level auth b ev ≤ 1 := by
  have hs : ∀ topic, b.stale topic = 0 := by
    intro topic
    unfold Broker.stale
    rw [List.filter_eq_nil_iff.mpr (fun e he => by simpa using h e he)]
    rfl
  unfold notices
  repeat' split
  all_goals first | omega | (rw [hs]; omega)

/-- So there is at most one record per event as long as only clients with a session hold subscriptions. -/
theorem C170_sessions_partial (t : Texts) (env : Env) (peers : ConnId → Peer) (sched : List Step) (level : Level) (hl : level.rank ≤ Level.info.rank)
    (h : ∀ pre b, pre <+: (run env (init peers) sched).log.map Prod.fst → Broker.start.after env.auth pre = some b →
      ∀ e ∈ b.subs, b.session e.1 ≠ none) :
    ((upTo level (transcript t env (init peers) sched)).filter ofHandler).length ≤ (run env (init peers) sched).log.length := by
  rw [handler_count t env peers sched hl, ← List.length_map (f := Prod.fst)]
  have key : ∀ (evs : List ClientEvent) (b : Broker), (∀ pre b', pre <+: evs → b.after env.auth pre = some b' → ∀ e ∈ b'.subs, b'.session e.1 ≠ none) →
      noticed level env.auth b evs ≤ evs.length := by
    intro evs
    induction evs with
    | nil => intro b _; exact Nat.le_refl 0
    | cons ev evs ih =>
      intro b hb
      have h1 := notices_le (level := level) (auth := env.auth) (hb [] b List.nil_prefix rfl) ev
      rw [noticed, List.length_cons]
      cases hs : b.step env.auth ev with
      | none => simp only; omega
      | some x =>
        simp only
        have := ih x.1 fun pre b' hp ha => hb (ev :: pre) b' (List.cons_prefix_cons.mpr ⟨rfl, hp⟩) (by rw [Broker.after, hs]; exact ha)
        omega
  exact key _ _ h

/-! ### The flood -/

theorem noticed_append (level : Level) (auth : IdentityProvider) (evs evs' : List ClientEvent) (b b' : Broker) (h : b.after auth evs = some b') :
    noticed level auth b (evs ++ evs') = noticed level auth b evs + noticed level auth b' evs' := by
  induction evs generalizing b with
  | nil => simp only [Broker.after, Option.some.injEq] at h; subst h; simp [noticed]
  | cons ev evs ih =>
    rw [List.cons_append, noticed, noticed]
    rw [Broker.after] at h
    cases hs : b.step auth ev with
    | none => rw [hs] at h; cases h
    | some x =>
      rw [hs] at h
      simp only
      rw [ih _ h]
      omega

/-- The first `k` clients come and go. -/
def hauntComing (addr : ConnId → SocketAddr) (k : Nat) : List ClientEvent := (List.range k).flatMap fun i =>
  [.connected ⟨.mqtt3, "s", 60, true, none, none, none⟩ (addr i) i, .controlPacket "s" .disconnect i]

/-- They subscribe. -/
def hauntSubs (k : Nat) : List ClientEvent := (List.range k).map fun i => .controlPacket "s" (.subscribe ⟨1, [⟨"t", .atMostOnce⟩]⟩) i

/-- The others send. -/
def hauntSends (addr : ConnId → SocketAddr) (k n : Nat) : List ClientEvent := (List.range n).flatMap fun i =>
  [.connected ⟨.mqtt3, "p", 60, true, none, none, none⟩ (addr (k + i)) (k + i), .controlPacket "p" (.publish (withPayload [])) (k + i),
    .controlPacket "p" .disconnect (k + i)]

def hauntEvents (addr : ConnId → SocketAddr) (k n : Nat) : List ClientEvent := hauntComing addr k ++ hauntSubs k ++ hauntSends addr k n

theorem coming_succ (addr : ConnId → SocketAddr) (k : Nat) : hauntComing addr (k + 1) = hauntComing addr k ++
    [.connected ⟨.mqtt3, "s", 60, true, none, none, none⟩ (addr k) k, .controlPacket "s" .disconnect k] := by
  unfold hauntComing; rw [List.range_succ, List.flatMap_append]; simp

theorem subs_succ (k : Nat) : hauntSubs (k + 1) = hauntSubs k ++ [.controlPacket "s" (.subscribe ⟨1, [⟨"t", .atMostOnce⟩]⟩) k] := by
  unfold hauntSubs; rw [List.range_succ, List.map_append]; rfl

theorem sends_succ (addr : ConnId → SocketAddr) (k n : Nat) : hauntSends addr k (n + 1) = hauntSends addr k n ++
    [.connected ⟨.mqtt3, "p", 60, true, none, none, none⟩ (addr (k + n)) (k + n), .controlPacket "p" (.publish (withPayload [])) (k + n),
      .controlPacket "p" .disconnect (k + n)] := by
  unfold hauntSends; rw [List.range_succ, List.flatMap_append]; simp

theorem coming_after (auth : IdentityProvider) (addr : ConnId → SocketAddr) (k : Nat) (level : Level) (hl : level ≠ .info) :
    Broker.start.after auth (hauntComing addr k) = some Broker.start ∧ noticed level auth Broker.start (hauntComing addr k) = 0 := by
  induction k with
  | zero => exact ⟨rfl, rfl⟩
  | succ k ih =>
    rw [coming_succ, after_append, noticed_append _ _ _ _ _ _ ih.1, ih.1, ih.2]
    refine ⟨?_, ?_⟩
    · simp only [Option.bind_some, Broker.after, Broker.step, login, Broker.packet]
      simp [Broker.start, Broker.forget, SubOp.client, Entries.counting, Entries.unsubscribe, Entries.filtersOf]
      funext c
      by_cases h : c = "s" <;> simp [h]
    · simp [noticed, Broker.step, login, notices, hl]

def hauntedState (k : Nat) : Broker := ⟨fun _ => none, List.replicate k ("s", "t")⟩

theorem subs_after (auth : IdentityProvider) (k : Nat) (level : Level) :
    Broker.start.after auth (hauntSubs k) = some (hauntedState k) ∧ noticed level auth Broker.start (hauntSubs k) = 0 := by
  induction k with
  | zero => exact ⟨rfl, rfl⟩
  | succ k ih =>
    rw [subs_succ, after_append, noticed_append _ _ _ _ _ _ ih.1, ih.1, ih.2]
    refine ⟨?_, ?_⟩
    · simp only [Option.bind_some, Broker.after, Broker.step, Broker.packet, hauntedState, List.replicate_succ', List.map_cons, List.map_nil]
    · simp [noticed, Broker.step, notices]

theorem stale_haunted (f : ClientId → Option ConnId) (hf : f "s" = none) (k : Nat) : (Broker.mk f (List.replicate k ("s", "t"))).stale "t" = k := by
  unfold Broker.stale
  simp only
  rw [List.filter_eq_self.mpr (fun e he => by rw [List.eq_of_mem_replicate he]; simp [hf]), List.map_replicate, ways_t]
  clear hf
  induction k with
  | zero => rfl
  | succ k ih => rw [List.replicate_succ, List.sum_cons, ih, Nat.add_comm]

theorem sends_after (auth : IdentityProvider) (addr : ConnId → SocketAddr) (k n : Nat) :
    (hauntedState k).after auth (hauntSends addr k n) = some (hauntedState k) ∧ noticed .warn auth (hauntedState k) (hauntSends addr k n) = n * k := by
  have hf : Entries.filtersOf "p" (List.replicate k ("s", "t")) = [] := by
    unfold Entries.filtersOf
    rw [List.filter_eq_nil_iff.mpr (fun e he => by rw [List.eq_of_mem_replicate he]; decide)]
    rfl
  induction n with
  | zero => exact ⟨rfl, by simp [noticed, hauntSends]⟩
  | succ n ih =>
    rw [sends_succ, after_append, noticed_append _ _ _ _ _ _ ih.1, ih.1, ih.2]
    refine ⟨?_, ?_⟩
    · simp only [Option.bind_some, Broker.after, Broker.step, login, Broker.packet]
      simp only [hauntedState, Broker.forget, SubOp.client, Entries.counting, hf, Entries.unsubscribe, List.foldl_nil, Option.some.injEq, Broker.mk.injEq, and_true]
      funext c
      by_cases h : c = "p" <;> simp [h]
    · have hs := stale_haunted (fun c => if c = "p" then some (k + n) else none) (by simp) k
      simp only [noticed, Broker.step, login, notices, hauntedState, Broker.packet, withPayload, hs]
      simp [Nat.succ_mul]

theorem haunt_after (auth : IdentityProvider) (addr : ConnId → SocketAddr) (k n : Nat) :
    Broker.start.after auth (hauntEvents addr k n) = some (hauntedState k) ∧ noticed .warn auth Broker.start (hauntEvents addr k n) = n * k := by
  obtain ⟨c1, c2⟩ := coming_after auth addr k .warn (by decide)
  obtain ⟨s1, s2⟩ := subs_after auth k .warn
  obtain ⟨t1, t2⟩ := sends_after auth addr k n
  have h1 : Broker.start.after auth (hauntComing addr k ++ hauntSubs k) = some (hauntedState k) := by rw [after_append, c1]; exact s1
  unfold hauntEvents
  refine ⟨by rw [after_append, h1]; exact t1, ?_⟩
  rw [noticed_append _ _ _ _ _ _ h1, noticed_append _ _ _ _ _ _ c1, c2, s2, t2]
  omega

theorem coming_from (addr : ConnId → SocketAddr) (k c : Nat) : (hauntComing addr k).filter (From c) = if c < k then
    [.connected ⟨.mqtt3, "s", 60, true, none, none, none⟩ (addr c) c, .controlPacket "s" .disconnect c] else [] := by
  induction k with
  | zero => simp [hauntComing]
  | succ k ih =>
    rw [coming_succ, List.filter_append, ih]
    by_cases h1 : c = k
    · subst h1; simp [From]
    · have h2 : ¬ k = c := fun e => h1 e.symm
      by_cases h3 : c < k
      · have : c < k + 1 := by omega
        simp [From, h2, h3, this]
      · have : ¬ c < k + 1 := by omega
        simp [From, h2, h3, this]

theorem subs_from (k c : Nat) : (hauntSubs k).filter (From c) = if c < k then
    [.controlPacket "s" (.subscribe ⟨1, [⟨"t", .atMostOnce⟩]⟩) c] else [] := by
  induction k with
  | zero => simp [hauntSubs]
  | succ k ih =>
    rw [subs_succ, List.filter_append, ih]
    by_cases h1 : c = k
    · subst h1; simp [From]
    · have h2 : ¬ k = c := fun e => h1 e.symm
      by_cases h3 : c < k
      · have : c < k + 1 := by omega
        simp [From, h2, h3, this]
      · have : ¬ c < k + 1 := by omega
        simp [From, h2, h3, this]

theorem sends_from (addr : ConnId → SocketAddr) (k n c : Nat) : (hauntSends addr k n).filter (From c) = if k ≤ c ∧ c < k + n then
    [.connected ⟨.mqtt3, "p", 60, true, none, none, none⟩ (addr c) c, .controlPacket "p" (.publish (withPayload [])) c,
      .controlPacket "p" .disconnect c] else [] := by
  induction n with
  | zero =>
    have : ¬ (k ≤ c ∧ c < k + 0) := by omega
    rw [if_neg this]; rfl
  | succ n ih =>
    rw [sends_succ, List.filter_append, ih]
    by_cases h1 : c = k + n
    · subst h1; simp [From]
    · have h2 : ¬ k + n = c := fun e => h1 e.symm
      by_cases h3 : k ≤ c ∧ c < k + n
      · have : k ≤ c ∧ c < k + (n + 1) := by omega
        simp [From, h2, h3, this]
      · have : ¬ (k ≤ c ∧ c < k + (n + 1)) := by omega
        rw [if_neg h3, if_neg this]
        simp [From, h2]

theorem ghost_sendable : Sendable ghost := by
  intro c hc
  simp only [ghost, List.mem_cons, List.not_mem_nil, or_false] at hc
  rcases hc with rfl | rfl | rfl
  · exact hello_sendable "s" (by unfold Fits; decide +kernel) (by decide +kernel)
  · exact ⟨trivial, trivial, by decide⟩
  · exact subscriber_sendable _ (by simp [subscriberPackets])

theorem haunt_possible (env : Env) (k n : Nat) {peers : ConnId → Peer} (h : Haunted k n peers) :
    Possible env peers (hauntEvents (fun c => (peers c).addr) k n) := by
  have hmem : ∀ ev ∈ hauntEvents (fun c => (peers c).addr) k n, (∃ c, From c ev)
      ∧ (∀ p addr c, ev = .connected p addr c → p.userName = none) ∧ ∀ id c, ev ≠ .controlPacket id .pingReq c := by
    intro ev hev
    simp only [hauntEvents, hauntComing, hauntSubs, hauntSends, List.mem_append, List.mem_flatMap, List.mem_map, List.mem_cons, List.not_mem_nil, or_false] at hev
    rcases hev with (⟨i, _, rfl | rfl⟩ | ⟨i, _, rfl⟩) | ⟨i, _, rfl | rfl | rfl⟩ <;>
      refine ⟨⟨_, rfl⟩, fun p addr c he => ?_, fun id c he => ?_⟩ <;> first | (cases he; done) | (cases he; rfl)
  have hshort : ∀ c, (peers c).segs.flatten.length < 4096 := by
    intro (c : Nat)
    by_cases h1 : c < k
    · rw [h.ghosts c h1]; decide +kernel
    · by_cases h2 : c < k + n
      · have := h.senders (c - k) (by omega)
        rw [Nat.add_sub_cancel' (by omega)] at this
        rw [this]; exact (passerBy_sendable (m := []) (by simp)).2
      · rw [h.rest c (by omega)]; decide
  refine ⟨(inOrder_short hshort _).mpr fun (c : Nat) => ?_, fun ev hev => (hmem ev hev).1, fun p addr c hp => ?_, fun d => ?_⟩
  · rw [hauntEvents, List.filter_append, List.filter_append, coming_from, subs_from, sends_from]
    by_cases h1 : c < k
    · refine ⟨ghost.map meaning, ?_, ?_⟩
      · rw [h.ghosts c h1]; exact decodes_client _ _ _ ghost_sendable
      · have : ¬ (k ≤ c ∧ c < k + n) := by omega
        rw [if_pos h1, if_pos h1, if_neg this]
        simp [ghost, hello, meaning, eventsOf, idOf]
    · by_cases h2 : c < k + n
      · refine ⟨(passerBy []).map meaning, ?_, ?_⟩
        · have := h.senders (c - k) (by omega)
          rw [Nat.add_sub_cancel' (by omega)] at this
          rw [this]
          exact decodes_client _ _ _ (passerBy_sendable (m := []) (by simp)).1
        · have : k ≤ c ∧ c < k + n := by omega
          rw [if_neg h1, if_neg h1, if_pos this]
          simp [passerBy, hello, meaning, eventsOf, idOf]
      · have : ¬ (k ≤ c ∧ c < k + n) := by omega
        rw [if_neg h1, if_neg h1, if_neg this]
        exact ⟨[], ⟨_, rfl⟩, List.nil_prefix⟩
  · rw [login, (hmem _ hp).2.1 p addr c rfl]; simp
  · have : fromAway (Broker.start.outputs env.auth (hauntEvents (fun c => (peers c).addr) k n) d) = [] := by
      refine fromAway_nil fun e he hd => ?_
      subst hd
      revert hmem he
      generalize hauntEvents (fun c => (peers c).addr) k n = evs
      generalize Broker.start = b
      intro hmem he
      induction evs generalizing b with
      | nil => exact absurd he List.not_mem_nil
      | cons ev evs ih =>
        obtain ⟨_, hu, hp⟩ := hmem ev List.mem_cons_self
        have hr := fun b' => ih b' (fun e he => hmem e (List.mem_cons_of_mem _ he))
        rw [Broker.outputs] at he
        cases hs : b.step env.auth ev with
        | none => rw [hs] at he; exact absurd he List.not_mem_nil
        | some x =>
          rw [hs] at he
          rcases List.mem_append.mp he with he | he
          · cases ev with
            | connected p addr c =>
              have := hu p addr c rfl
              simp only [Broker.step, login, this, Option.some.injEq] at hs
              subst hs
              simp only [Spec.to] at he
              split at he <;> simp at he
            | disconnected id => simp only [Broker.step, Option.some.injEq] at hs; subst hs; simp [nothing] at he
            | connectionLost id => simp only [Broker.step, Option.some.injEq] at hs; subst hs; simp [nothing] at he
            | controlPacket id p c =>
              simp only [Broker.step, Option.some.injEq] at hs
              subst hs
              cases p with
              | pingReq => exact hp id c rfl
              | publish q => simp only [Broker.packet] at he; have := List.eq_of_mem_replicate he; cases this
              | subscribe q => simp only [Broker.packet, Spec.to] at he; split at he <;> simp at he
              | unsubscribe q => simp only [Broker.packet, Spec.to] at he; split at he <;> simp at he
              | _ => simp [Broker.packet, nothing] at he
          · exact hr _ he
    rw [this]; decide

/-- C170 fails. `k` clients take their leave and then subscribe to "t"; `n` others send a message on "t". Each message makes `k` records of level WARN:
`n * k` for `k + n` connections of three packets. -/
theorem C170_flood_fails (t : Texts) (env : Env) (addr : ConnId → SocketAddr) (k n : Nat) :
    ∃ w : ConnId → Nat, ∀ peers, Haunted k n peers → (∀ c, (peers c).addr = addr c) → (∀ c, w c ≤ (peers c).script.length) →
      ∃ sched, (run env (init peers) sched).log.length = 3 * (k + n)
        ∧ ((upTo .warn (transcript t env (init peers) sched)).filter ofHandler).length = n * k := by
  obtain ⟨w, hw⟩ := C77_any_possible env (hauntEvents addr k n)
  refine ⟨w, fun peers h ha hs => ?_⟩
  have hp := haunt_possible env k n h
  rw [show (fun c => (peers c).addr) = addr from funext ha] at hp
  obtain ⟨sched, _, h2, _⟩ := hw peers hs hp
  refine ⟨sched, ?_, ?_⟩
  · rw [← List.length_map (f := Prod.fst), h2]
    have e1 : ∀ k, (hauntComing addr k).length = 2 * k := by
      intro k
      induction k with
      | zero => rfl
      | succ k ih => rw [coming_succ, List.length_append, ih]; simp; omega
    have e3 : ∀ n, (hauntSends addr k n).length = 3 * n := by
      intro n
      induction n with
      | zero => rfl
      | succ n ih => rw [sends_succ, List.length_append, ih]; simp; omega
    rw [hauntEvents, List.length_append, List.length_append, e1, e3]
    simp only [hauntSubs, List.length_map, List.length_range]
    omega
  · rw [handler_count t env peers sched (by decide), h2]
    exact (haunt_after env.auth addr k n).2

/-- Such clients, for any numbers. -/
def haunting (k n : Nat) (w : ConnId → Nat) : ConnId → Peer := fun c =>
  ⟨⟨127, c⟩, "u", if c < k then [clientBytes ghost] else if c < k + n then [clientBytes (passerBy [])] else [], .silence, List.replicate (w c) (.accept 65535)⟩

theorem haunting_haunted (k n : Nat) (w : ConnId → Nat) : Haunted k n (haunting k n w) := by
  refine ⟨fun i hi => ?_, fun i hi => ?_, fun c hc => ?_⟩
  · simp [haunting, hi]
  · have h1 : ¬ k + i < k := by omega
    have h2 : k + i < k + n := by omega
    simp [haunting, h1, h2]
  · have h1 : ¬ c < k := by omega
    have h2 : ¬ c < k + n := by omega
    simp [haunting, h1, h2]

example (k n : Nat) (w : ConnId → Nat) : Haunted k n (haunting k n w) ∧ (∀ c, (haunting k n w c).addr = ⟨127, c⟩) ∧ ∀ c, w c ≤ (haunting k n w c).script.length :=
  ⟨haunting_haunted k n w, fun _ => rfl, fun c => by simp [haunting]⟩

/-- So no number of records per packet is enough, even if only warnings and errors are kept. -/
theorem C170_no_bound_fails (t : Texts) (env : Env) (r : Nat) : ∃ peers sched,
    r * (run env (init peers) sched).log.length < (upTo .warn (transcript t env (init peers) sched)).length := by
  obtain ⟨w, hw⟩ := C170_flood_fails t env (fun c => ⟨127, c⟩) (6 * r + 1) (6 * r + 1)
  obtain ⟨sched, h1, h2⟩ := hw (haunting (6 * r + 1) (6 * r + 1) w) (haunting_haunted _ _ w) (fun _ => rfl) (fun c => by simp [haunting])
  refine ⟨haunting (6 * r + 1) (6 * r + 1) w, sched, ?_⟩
  have h3 := List.length_filter_le ofHandler (upTo .warn (transcript t env (init (haunting (6 * r + 1) (6 * r + 1) w)) sched))
  rw [h2] at h3
  rw [h1]
  refine Nat.lt_of_lt_of_le ?_ h3
  have e : r * (3 * (6 * r + 1 + (6 * r + 1))) = (6 * r) * (6 * r + 1) := by
    rw [show 3 * (6 * r + 1 + (6 * r + 1)) = 6 * (6 * r + 1) by omega, ← Nat.mul_assoc, Nat.mul_comm r 6]
  rw [e]
  exact Nat.mul_lt_mul_of_pos_right (by omega) (by omega)

-- C170_sessions_partial: the subscriber of `settled` has a session
example : ∀ e ∈ settled.subs, settled.session e.1 ≠ none := by decide +kernel

end Ratel
