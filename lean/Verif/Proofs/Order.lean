import Verif.Spec.Order
import Verif.Proofs.SysProtocol

namespace Ratel

open Spec

namespace Sys

/-- Where the message of an event comes from, if it is one; `seen` came before. -/
def originOf (seen : List ClientEvent) : ClientEvent → Option Origin
  | .controlPacket _ (.publish _) tx => some (tx, (seen.filter (From tx)).length)
  | _ => none

/-- The origins of the messages among some events. -/
def originsFrom (seen : List ClientEvent) : List ClientEvent → List Origin
  | [] => []
  | ev :: evs => (originOf seen ev).toList ++ originsFrom (seen ++ [ev]) evs

theorem originsFrom_append (seen a b : List ClientEvent) :
    originsFrom seen (a ++ b) = originsFrom seen a ++ originsFrom (seen ++ a) b := by
  induction a generalizing seen with
  | nil => simp [originsFrom]
  | cons ev a ih => simp [originsFrom, ih]

theorem originsFrom_snoc (evs : List ClientEvent) (ev : ClientEvent) :
    originsFrom [] (evs ++ [ev]) = originsFrom [] evs ++ (originOf evs ev).toList := by
  simp [originsFrom_append, originsFrom]

theorem originOf_bound {seen : List ClientEvent} {ev : ClientEvent} {x : Origin} (h : originOf seen ev = some x) :
    x.2 = (seen.filter (From x.1)).length ∧ From x.1 ev := by
  unfold originOf at h
  split at h
  · cases h; exact ⟨rfl, rfl⟩
  · cases h

theorem originsFrom_bound (evs : List ClientEvent) : ∀ x ∈ originsFrom [] evs, x.2 < (evs.filter (From x.1)).length := by
  refine snoc_induction (P := fun evs => ∀ x ∈ originsFrom [] evs, x.2 < (evs.filter (From x.1)).length) (by simp [originsFrom]) ?_ evs
  intro evs ev ih x hx
  rw [originsFrom_snoc] at hx
  rw [List.filter_append, List.length_append]
  rcases List.mem_append.mp hx with hx | hx
  · have := ih x hx; omega
  · obtain ⟨h1, h2⟩ := originOf_bound (Option.mem_toList.mp hx)
    rw [h1, List.filter_cons, if_pos (by simpa using h2)]
    simp

theorem originsFrom_pairwise (evs : List ClientEvent) : (originsFrom [] evs).Pairwise fun a b => a.1 = b.1 → a.2 < b.2 := by
  refine snoc_induction (P := fun evs => (originsFrom [] evs).Pairwise fun a b => a.1 = b.1 → a.2 < b.2) (by simp [originsFrom]) ?_ evs
  intro evs ev ih
  rw [originsFrom_snoc, List.pairwise_append]
  refine ⟨ih, ?_, fun a ha b hb hab => ?_⟩
  · cases originOf evs ev <;> simp
  · rw [(originOf_bound (Option.mem_toList.mp hb)).1, ← hab]
    exact originsFrom_bound evs a ha

theorem filter_snoc_get {evs : List ClientEvent} {ev : ClientEvent} {c : ConnId} {l : List ClientEvent} (h : From c ev)
    (hp : (evs ++ [ev]).filter (From c) <+: l) : l[(evs.filter (From c)).length]? = some ev := by
  obtain ⟨t, rfl⟩ := hp
  rw [List.filter_append, List.filter_cons, if_pos (by simpa using h)]
  simp

theorem originsFrom_published {peers : ConnId → Peer} {packets : ConnId → List ControlPacket} (evs : List ClientEvent) :
    (∀ c, evs.filter (From c) <+: eventsOf (peers c) c (packets c)) →
    ∀ x ∈ originsFrom [] evs, ∃ q, (packets x.1)[x.2]? = some (.publish q) := by
  refine snoc_induction (P := fun evs => (∀ c, evs.filter (From c) <+: eventsOf (peers c) c (packets c)) →
    ∀ x ∈ originsFrom [] evs, ∃ q, (packets x.1)[x.2]? = some (.publish q)) (by simp [originsFrom]) ?_ evs
  intro evs ev ih ho x hx
  rw [originsFrom_snoc] at hx
  rcases List.mem_append.mp hx with hx | hx
  · exact ih (fun c => List.IsPrefix.trans (by rw [List.filter_append]; exact List.prefix_append _ _) (ho c)) x hx
  · have hx := Option.mem_toList.mp hx
    unfold originOf at hx
    split at hx
    · cases hx
      exact ⟨_, eventsOf_index (filter_snoc_get rfl (ho _))⟩
    · cases hx

theorem messagesOf_replicate (n : Nat) (q : PublishPacket) :
    messagesOf (List.replicate n (.controlPacket (.publish q))) = List.replicate n q := by
  unfold messagesOf
  induction n with
  | zero => rfl
  | succ n ih => simp [List.replicate_succ, ih]

/-- Only a PUBLISH makes the broker send messages. -/
theorem no_messages {auth : IdentityProvider} {b b' : Broker} {ev : ClientEvent} {out : Outputs} (h : b.step auth ev = some (b', out))
    (hp : ∀ id q tx, ev ≠ .controlPacket id (.publish q) tx) (d : ConnId) : messagesOf (out d) = [] := by
  apply List.eq_nil_iff_forall_not_mem.mpr
  intro q hq
  unfold messagesOf at hq
  obtain ⟨e, he, hq⟩ := List.mem_filterMap.mp hq
  cases step_sends h he with
  | publish id q' tx x _ _ _ => exact hp id q' tx rfl
  | _ => simp at hq

theorem originOf_none {seen : List ClientEvent} {ev : ClientEvent} (hp : ∀ id q tx, ev ≠ .controlPacket id (.publish q) tx) :
    originOf seen ev = none := by
  unfold originOf
  split
  · exact absurd rfl (hp _ _ _)
  · rfl

theorem originsFrom_received {auth : IdentityProvider} (d : ConnId) {peers : ConnId → Peer} {packets : ConnId → List ControlPacket}
    (evs : List ClientEvent) : (∀ c, evs.filter (From c) <+: eventsOf (peers c) c (packets c)) →
    ∃ copies : Origin → Nat, (messagesOf (Broker.start.outputs auth evs d)).map (fun q => some (ControlPacket.publish q))
      = ((originsFrom [] evs).flatMap fun x => List.replicate (copies x) x).map fun x => (packets x.1)[x.2]? := by
  refine snoc_induction (P := fun evs => (∀ c, evs.filter (From c) <+: eventsOf (peers c) c (packets c)) →
    ∃ copies : Origin → Nat, (messagesOf (Broker.start.outputs auth evs d)).map (fun q => some (ControlPacket.publish q))
      = ((originsFrom [] evs).flatMap fun x => List.replicate (copies x) x).map fun x => (packets x.1)[x.2]?)
    (fun _ => ⟨fun _ => 0, rfl⟩) ?_ evs
  intro evs ev ih ho
  obtain ⟨copies, hc⟩ := ih fun c => List.IsPrefix.trans (by rw [List.filter_append]; exact List.prefix_append _ _) (ho c)
  -- the copies of the new message can be chosen freely
  have key : ∀ n : Nat, messagesOf (Broker.start.outputs auth (evs ++ [ev]) d)
        = messagesOf (Broker.start.outputs auth evs d) ++ (match ev with | .controlPacket _ (.publish q) _ => List.replicate n q | _ => []) →
      ∃ copies : Origin → Nat, (messagesOf (Broker.start.outputs auth (evs ++ [ev]) d)).map (fun q => some (ControlPacket.publish q))
        = ((originsFrom [] (evs ++ [ev])).flatMap fun x => List.replicate (copies x) x).map fun x => (packets x.1)[x.2]? := by
    intro n hn
    by_cases hpub : ∃ id q tx, ev = .controlPacket id (.publish q) tx
    · obtain ⟨id, q, tx, rfl⟩ := hpub
      refine ⟨fun x => if x = (tx, (evs.filter (From tx)).length) then n else copies x, ?_⟩
      rw [hn, List.map_append, hc, originsFrom_snoc, List.flatMap_append, List.map_append]
      congr 1
      · congr 1
        rw [List.flatMap_def, List.flatMap_def]
        congr 1
        apply List.map_congr_left
        intro x hx
        have hne : x ≠ (tx, (evs.filter (From tx)).length) := by
          rintro rfl
          exact Nat.lt_irrefl _ (originsFrom_bound evs _ hx)
        simp only [hne, ↓reduceIte]
      · simp only [originOf, Option.toList_some, List.flatMap_cons, List.flatMap_nil, List.append_nil, ↓reduceIte, List.map_replicate]
        congr 1
        exact (eventsOf_index (filter_snoc_get (c := tx) rfl (ho tx))).symm
    · have hpub : ∀ id q tx, ev ≠ .controlPacket id (.publish q) tx := fun id q tx h => hpub ⟨id, q, tx, h⟩
      refine ⟨copies, ?_⟩
      rw [originsFrom_snoc, originOf_none hpub, Option.toList_none, List.append_nil, ← hc, hn]
      congr 1
      split
      · exact absurd rfl (hpub _ _ _)
      · simp
  cases hb : Broker.start.after auth evs with
  | none =>
    apply key 0
    rw [outputs_append, hb, List.append_nil]
    split <;> simp
  | some b =>
    cases hs : b.step auth ev with
    | none =>
      apply key 0
      rw [outputs_snoc_none hb hs]
      split <;> simp
    | some r =>
      obtain ⟨b', out⟩ := r
      rw [outputs_snoc hb hs, messagesOf_append] at key
      by_cases hpub : ∃ id q tx, ev = .controlPacket id (.publish q) tx
      · obtain ⟨id, q, tx, rfl⟩ := hpub
        rw [outputs_snoc hb hs, messagesOf_append]
        apply key (b.copiesTo d q.message.topic)
        congr 1
        simp only [Broker.step, Broker.packet, Option.some.injEq, Prod.mk.injEq] at hs
        rw [← hs.2]
        exact messagesOf_replicate _ _
      · rw [outputs_snoc hb hs, messagesOf_append]
        apply key 0
        congr 1
        rw [no_messages hs fun id q tx h => hpub ⟨id, q, tx, h⟩]
        split <;> simp

/-- The common order. -/
theorem explains {env : Env} {peers : ConnId → Peer} {packets : ConnId → List ControlPacket} {s : Sys}
    (hd : ∀ d, (s.conns d).delivered <+: Broker.start.outputs env.auth s.served d)
    (hp : ∀ c, s.served.filter (From c) <+: eventsOf (peers c) c (packets c)) : Explains packets (originsFrom [] s.served) s where
  published := originsFrom_published _ hp
  publisher := originsFrom_pairwise _
  received d := by
    obtain ⟨copies, hc⟩ := originsFrom_received (auth := env.auth) d s.served hp
    refine ⟨copies, ?_⟩
    rw [← hc]
    obtain ⟨t, ht⟩ := hd d
    rw [← ht, messagesOf_append, List.map_append]
    exact List.prefix_append _ _

end Sys

end Ratel
