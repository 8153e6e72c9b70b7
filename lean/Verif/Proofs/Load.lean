/-
How much work one message makes.
-/
import Verif.Proofs.Memory
import Verif.Proofs.SysRealize
import Verif.Spec.Load

namespace Ratel

open Decoder Encoder Spec

theorem levelWays_pluses (n : Nat) : levelWays (List.replicate n "+") (List.replicate n "+") = 2 ^ n := by
  induction n with
  | zero => rfl
  | succ n ih =>
    rw [List.replicate_succ, levelWays, ih, if_neg (by simp), if_pos rfl, Nat.pow_succ]
    omega

theorem ways_pluses {f : String} {n : Nat} (h : Levels f (List.replicate n "+")) : ways f f = 2 ^ n := by
  unfold ways
  rw [levelsOf_eq, ← levels_unique h]
  exact levelWays_pluses n

namespace Node

theorem get?_mem_paths {ch : List (String × Node)} {s : String} {n : Node} (h : AssocMap.get? ch s = some n) {q : List String}
    (hq : q ∈ n.paths) : s :: q ∈ pathsChildren ch := by
  induction ch with
  | nil => cases h
  | cons kn ch ih =>
    obtain ⟨k, m⟩ := kn
    rw [mem_pathsChildren_cons]
    rw [AssocMap.get?] at h
    split at h
    · rename_i hk
      cases h
      exact .inl ⟨q, by rw [hk], hq⟩
    · exact .inr (ih h)

theorem at?_mem_paths (p : List String) (n : Node) (h : (at? p n).isSome = true) : p ∈ n.paths := by
  induction p generalizing n with
  | nil => exact nil_mem_paths n
  | cons s p ih =>
    obtain ⟨ch, cl⟩ := n
    rw [at?] at h
    cases hg : AssocMap.get? (mk ch cl).children s with
    | none => rw [hg] at h; cases h
    | some m =>
      rw [hg] at h
      exact mem_paths_mk.mpr (.inr (get?_mem_paths hg (ih m h)))

end Node

theorem nextPaths_nodup {t : String} (ht : t ≠ "+") {ps : List (List String)} (h : ps.Nodup) : (nextPaths t ps).Nodup := by
  unfold nextPaths
  induction ps with
  | nil => exact List.nodup_nil
  | cons p ps ih =>
    obtain ⟨h1, h2⟩ := List.nodup_cons.mp h
    rw [List.flatMap_cons, List.nodup_append]
    refine ⟨?_, ih h2, ?_⟩
    · simp [ht]
    · rintro a ha b hb rfl
      obtain ⟨q, hq, hb⟩ := List.mem_flatMap.mp hb
      simp only [List.mem_cons, List.not_mem_nil, or_false] at ha hb
      have key : ∀ {x y : String}, p ++ [x] = q ++ [y] → False := fun hxy => by
        have := (List.append_inj' hxy rfl).1
        subst this
        exact h1 hq
      rcases ha with rfl | rfl <;> rcases hb with hb | hb <;> exact key hb

theorem finalPaths_nodup {ts : List String} (hts : ∀ t ∈ ts, t ≠ "+") {ps : List (List String)} (h : ps.Nodup) : (finalPaths ts ps).Nodup := by
  induction ts generalizing ps with
  | nil => exact h
  | cons t ts ih => exact ih (fun x hx => hts x (List.mem_cons_of_mem _ hx)) (nextPaths_nodup (hts t List.mem_cons_self) h)

theorem length_filterMap_isSome {α β : Type} (f : α → Option β) (l : List α) :
    (l.filterMap f).length = (l.filter fun a => (f a).isSome).length := by
  induction l with
  | nil => rfl
  | cons a l ih =>
    rw [List.filterMap_cons, List.filter_cons]
    cases f a <;> simp [ih]

/-- Levels other than "+" lead to each node of the tree at most once. -/
theorem walk_nodes (root : Node) (ts : List String) (hts : ∀ t ∈ ts, t ≠ "+") (acc : List ClientId) :
    (SubscriptionsRepository.walk ts [root] acc).1.length ≤ root.count := by
  have h := walk_eq root ts [[]] acc
  rw [show ([[]] : List (List String)).filterMap (Node.at? · root) = [root] by rfl] at h
  rw [h, length_filterMap_isSome, ← Node.length_paths]
  refine List.Nodup.length_le_of_subset (List.Pairwise.filter _ (finalPaths_nodup hts (by simp))) fun p hp => ?_
  exact Node.at?_mem_paths p root (List.mem_filter.mp hp).2

theorem finalPaths_pluses (n : Nat) (ps : List (List String)) :
    (finalPaths (List.replicate n "+") ps).length = 2 ^ n * ps.length
    ∧ ∀ p ∈ finalPaths (List.replicate n "+") ps, ∃ q ∈ ps, p = q ++ List.replicate n "+" := by
  induction n generalizing ps with
  | zero => simp [finalPaths]
  | succ n ih =>
    rw [List.replicate_succ, finalPaths]
    obtain ⟨h1, h2⟩ := ih (nextPaths "+" ps)
    have hl : (nextPaths "+" ps).length = 2 * ps.length := by
      unfold nextPaths
      induction ps with
      | nil => rfl
      | cons p ps ih' => rw [List.flatMap_cons, List.length_append, List.length_cons, ih' (ih _).1 (ih _).2]; simp; omega
    refine ⟨by rw [h1, hl, Nat.pow_succ, Nat.mul_assoc], fun p hp => ?_⟩
    obtain ⟨q, hq, rfl⟩ := h2 p hp
    obtain ⟨q', hq', hq⟩ := List.mem_flatMap.mp hq
    simp only [List.mem_cons, List.not_mem_nil, or_false, or_self] at hq
    exact ⟨q', hq', by rw [hq]; simp⟩

/-- The walk along n levels "+" through a tree in which there is such a path. -/
theorem walk_pluses (root : Node) (n : Nat) (acc : List ClientId) (h : (Node.at? (List.replicate n "+") root).isSome = true) :
    (SubscriptionsRepository.walk (List.replicate n "+") [root] acc).1.length = 2 ^ n := by
  have hw := walk_eq root (List.replicate n "+") [[]] acc
  rw [show ([[]] : List (List String)).filterMap (Node.at? · root) = [root] by rfl] at hw
  obtain ⟨h1, h2⟩ := finalPaths_pluses n [[]]
  rw [hw, length_filterMap_isSome, List.filter_eq_self.mpr, h1]
  · simp
  · intro p hp
    obtain ⟨q, hq, rfl⟩ := h2 p hp
    rw [List.mem_singleton] at hq
    subst hq
    exact h

/-- How many sends an event makes. -/
theorem sends_le (auth : IdentityProvider) (now : Instant) {m m' : MessagingService} {b : Broker} (h : Rep m b) {ev : ClientEvent}
    {sends : List (ConnId × ServerEvent)} (hh : Handler.handle auth now m ev = some (m', sends)) :
    (∃ id q tx, ev = .controlPacket id (.publish q) tx
      ∧ sends.length ≤ (b.subs.map fun e => ways e.2 q.message.topic).sum) ∨ sends.length ≤ 2 := by
  cases ev with
  | connected p addr tx =>
    right
    simp only [Handler.handle, Handler.onConnect] at hh
    split at hh
    · split at hh
      · cases hh
      · split at hh <;> (simp only [Option.some.injEq, Prod.mk.injEq] at hh; rw [← hh.2]; simp)
    · simp only [Option.some.injEq, Prod.mk.injEq] at hh
      rw [← hh.2]; simp
  | controlPacket id p tx =>
    cases p with
    | publish q =>
      left
      refine ⟨id, q, tx, rfl, ?_⟩
      simp only [Handler.handle, Handler.onPacket, Handler.onPublish, Option.some.injEq, Prod.mk.injEq] at hh
      have hlen : sends.length = (m.sendersToPublish q.message.topic).length := by
        rw [← hh.2]; exact List.length_map _
      rw [hlen]
      have h1 : m.sendersToPublish q.message.topic = ((m.subscriptions.subscribedClients q.message.topic).getD []).filterMap b.session := by
        unfold MessagingService.sendersToPublish
        rw [subscribedClients_eq]
        simp only [Option.getD_some, h.session]
      have h2 := countP_clients m.subscriptions h.subs (fun _ => True) q.message.topic
      simp only [decide_true, List.countP_true] at h2
      rw [List.filter_eq_self.mpr (by simp)] at h2
      rw [← h2]
      rw [h1]
      exact List.length_filterMap_le _ _
    | pingReq =>
      right
      simp only [Handler.handle, Handler.onPacket, Handler.onPingReq] at hh
      split at hh <;> (simp only [Option.some.injEq, Prod.mk.injEq] at hh; rw [← hh.2]; simp)
    | _ =>
      right
      simp only [Handler.handle, Handler.onPacket, Handler.onSubscribe, Handler.onUnsubscribe, Handler.onDisconnect, Option.some.injEq,
        Prod.mk.injEq] at hh
      rw [← hh.2]; simp
  | disconnected id =>
    right
    simp only [Handler.handle, Option.some.injEq, Prod.mk.injEq] at hh
    rw [← hh.2]; simp
  | connectionLost id =>
    right
    simp only [Handler.handle, Handler.onConnectionLost, Option.some.injEq, Prod.mk.injEq] at hh
    rw [← hh.2]; simp

theorem sum_le_length {α : Type} (l : List α) (f : α → Nat) (h : ∀ a ∈ l, f a ≤ 1) : (l.map f).sum ≤ l.length := by
  induction l with
  | nil => simp
  | cons a l ih =>
    have h1 := h a List.mem_cons_self
    have h2 := ih fun b hb => h b (List.mem_cons_of_mem _ hb)
    simp only [List.map_cons, List.sum_cons, List.length_cons]
    omega

namespace Sys

/-- The next event is taken, however much there is to send for it. -/
theorem Realized.taken {env : Env} {peers : ConnId → Peer} {cs : ConnId → List ClientPacket} {evs : List ClientEvent} {sched : List Step}
    (h : Realized peers cs evs (run env (init peers) sched)) {ev : ClientEvent} (hc : ∃ c, From c ev)
    (hp : ∀ c, (evs ++ [ev]).filter (From c) <+: eventsOf (peers c) c ((cs c).map meaning)) {b b' : Broker} {out : Outputs}
    (hb1 : Broker.start.after env.auth evs = some b) (hstep : b.step env.auth ev = some (b', out)) (hne : ∃ d, out d ≠ []) :
    ∃ sched' todo, (run env (init peers) (sched ++ sched')).handler = .busy todo ∧ (∀ d, sentTo todo d = out d)
      ∧ (run env (init peers) (sched ++ sched')).log.map Prod.fst = evs ++ [ev]
      ∧ (∀ d, ((run env (init peers) (sched ++ sched')).conns d).rxOpen = true)
      ∧ Rep (run env (init peers) (sched ++ sched')).messaging b' := by
  obtain ⟨c, hc⟩ := hc
  have hcne : cs c ≠ [] := by
    intro he
    have := hp c
    rw [he, List.filter_append, List.filter_cons, if_pos (by simpa using hc)] at this
    simp [eventsOf] at this
  obtain ⟨k', hsp, hready, k1, -⟩ := (h.ready c hcne).speaks (env := env) hc (hp c)
  have hinv := inv_run env peers sched
  have hserved : (run env (init peers) sched).served = evs := by
    unfold served; rw [h.log, List.map_map]; exact List.map_id evs
  have hrep : Rep (run env (init peers) sched).messaging b := by
    cases hinv.serves with
    | rest b₀ _ ha' hr ho =>
      rw [hserved, hb1] at ha'
      cases ha'
      exact hr
    | sending _ _ _ _ _ _ h' => rw [h.idle] at h'; cases h'
    | failed _ _ _ h' => rw [h.idle] at h'; cases h'
    | broken _ _ _ _ _ _ h' => rw [h.idle] at h'; cases h'
  have href := handle_refines env.auth 0 hrep ev
  rw [hstep] at href
  cases hhandle : Handler.handle env.auth 0 (run env (init peers) sched).messaging ev with
  | none => rw [hhandle] at href; exact href.elim
  | some r =>
    obtain ⟨m', sends⟩ := r
    rw [hhandle] at href
    obtain ⟨hm', hout⟩ := href
    have hsne : sends ≠ [] := by
      rintro rfl
      obtain ⟨d, hd⟩ := hne
      exact hd (by rw [← hout d]; rfl)
    have h1 := enter env ⟨h.idle, h.events, rfl⟩ hsp
    refine ⟨[.read c, .read c, .handler 0], sends, ?_⟩
    rw [run_append, show ([.read c, .read c, .handler 0] : List Step) = [.read c, .read c] ++ [.handler 0] from rfl, run_append, h1]
    have h2 : run env ({ run env (init peers) sched with events := [ev] }.setConn c k') [.handler 0]
        = { (run env (init peers) sched).setConn c k' with
              log := (run env (init peers) sched).log ++ [(ev, 0)], messaging := m', handler := .busy sends, events := [] } := by
      rw [run_cons]
      unfold step stepHandler
      simp only [setConn_handler, h.idle, setConn_events, setConn_messaging, hhandle, setConn_log]
      cases sends with
      | nil => exact absurd rfl hsne
      | cons => rfl
    rw [h2]
    refine ⟨rfl, hout, ?_, fun d => ?_, hm'⟩
    · show ((run env (init peers) sched).log ++ [(ev, 0)]).map Prod.fst = _
      rw [List.map_append]
      exact congrArg (· ++ [ev]) hserved
    · show (if d = c then k' else (run env (init peers) sched).conns d).rxOpen = true
      split
      · rw [k1]; exact h.open_ _
      · exact h.open_ _

/-- The packet handler takes nothing new before it has made all sends. -/
theorem busy_run (env : Env) (sched : List Step) (s : Sys) (todo : List (ConnId × ServerEvent)) (hh : s.handler = .busy todo ∨ s.handler = .crashed)
    (hl : handlerSteps sched < todo.length ∨ s.handler = .crashed) : (run env s sched).log = s.log := by
  induction sched generalizing s todo with
  | nil => rfl
  | cons st sched ih =>
    rw [run_cons]
    have keep : ∀ s' : Sys, s'.log = s.log → s'.handler = s.handler → handlerSteps (st :: sched) = handlerSteps sched → (run env s' sched).log = s.log := by
      intro s' h1 h2 h3
      rw [← h1]
      refine ih s' todo (by rw [h2]; exact hh) ?_
      rw [h2]
      rcases hl with hl | hl
      · rw [h3] at hl
        exact .inl hl
      · exact .inr hl
    cases st with
    | read c =>
      refine keep _ ?_ ?_ rfl <;>
      · simp only [step, stepRead]
        (repeat' split) <;> rfl
    | write c =>
      refine keep _ ?_ ?_ rfl <;>
      · simp only [step, stepWrite]
        (repeat' split) <;> rfl
    | ctrlC => exact keep _ rfl rfl rfl
    | stop =>
      refine keep _ ?_ ?_ rfl <;>
      · simp only [step]
        rcases hh with hh | hh <;> simp only [hh]
    | handler now =>
      rcases hh with hh | hh
      · rcases hl with hl | hl
        · rw [handlerSteps] at hl
          cases todo with
          | nil => simp at hl
          | cons x todo =>
            obtain ⟨d, e⟩ := x
            rw [List.length_cons] at hl
            simp only [step, stepHandler, hh]
            split
            · split
              · refine ih _ todo ?_ (.inl (by omega))
                by_cases ht : todo = []
                · subst ht; simp at hl
                · simp [ht]
              · refine ih s ((d, e) :: todo) (.inl hh) (.inl ?_)
                rw [List.length_cons]; omega
            · exact ih { s with handler := .crashed } [] (.inr rfl) (.inr rfl)
        · rw [hh] at hl; cases hl
      · simp only [step, stepHandler, hh]
        exact ih s [] (.inr hh) (.inr hh)

end Sys

end Ratel
