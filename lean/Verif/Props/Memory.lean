/-
C94: the memory taken up by subscriptions.
-/
import Verif.Proofs.Memory
import Verif.Props.Protocol

namespace Ratel

open Decoder Encoder Spec Sys

/-! ### C94 -/

theorem subscribeAll_repo (id : ClientId) (ss : List Subscription) (m : MessagingService) :
    (Handler.subscribeAll id ss m).2.subscriptions = (ss.map (SubOp.subscribe id)).foldl applyOp m.subscriptions := by
  induction ss generalizing m with
  | nil => rfl
  | cons s ss ih =>
    simp only [Handler.subscribeAll, List.map_cons, List.foldl_cons]
    rw [ih]
    rfl

/-- Handling an event does to the tree what the requests in it do. -/
theorem handle_repo (auth : IdentityProvider) (now : Instant) (m m' : MessagingService) (ev : ClientEvent)
    (sends : List (ConnId × ServerEvent)) (h : Handler.handle auth now m ev = some (m', sends)) :
    m'.subscriptions = (subOps ev).foldl applyOp m.subscriptions := by
  cases ev with
  | connected p addr tx =>
    simp only [Handler.handle, Handler.onConnect] at h
    simp only [subOps, List.foldl_nil]
    split at h
    · split at h
      · cases h
      · split at h
        · cases h; rfl
        · cases h; rfl
    · cases h; rfl
  | controlPacket id p tx =>
    cases p with
    | subscribe s =>
      simp only [Handler.handle, Handler.onPacket, Handler.onSubscribe] at h
      cases h
      exact subscribeAll_repo id s.subscriptions m
    | unsubscribe u => cases h; rfl
    | disconnect => cases h; rfl
    | pingReq =>
      simp only [Handler.handle, Handler.onPacket, Handler.onPingReq] at h
      split at h <;> (cases h; rfl)
    | publish q => cases h; rfl
    | _ => cases h; rfl
  | disconnected id => cases h; rfl
  | connectionLost id => cases h; rfl

theorem handle_none (auth : IdentityProvider) (now : Instant) (m : MessagingService) (ev : ClientEvent)
    (h : Handler.handle auth now m ev = none) : subOps ev = [] := by
  cases ev with
  | connected p addr tx => rfl
  | controlPacket id p tx =>
    cases p with
    | subscribe s => cases h
    | unsubscribe u => cases h
    | disconnect => cases h
    | _ => rfl
  | disconnected id => rfl
  | connectionLost id => cases h

/-- The tree of the running broker is that of the requests taken so far. -/
theorem tree_run (env : Env) (peers : ConnId → Peer) (sched : List Step) :
    (run env (init peers) sched).messaging.subscriptions
      = repo (((run env (init peers) sched).log.map Prod.fst).flatMap subOps) := by
  induction sched using snoc_induction with
  | nil => rfl
  | snoc sched st ih =>
    have hrun : run env (init peers) (sched ++ [st]) = step env (run env (init peers) sched) st := by
      simp only [run, List.foldl_append, List.foldl_cons, List.foldl_nil]
    rw [hrun]
    generalize run env (init peers) sched = s at ih
    cases st with
    | read c => rw [show step env s (.read c) = stepRead env s c from rfl, (stepRead_rest env s c).2.1, (stepRead_rest env s c).2.2.1]; exact ih
    | write c =>
      rw [show step env s (.write c) = stepWrite env s c from rfl, (stepWrite_rest env s c).2.2.1, (stepWrite_rest env s c).2.2.2.1]
      exact ih
    | handler now =>
      show (stepHandler env now s).messaging.subscriptions = repo (((stepHandler env now s).log.map Prod.fst).flatMap subOps)
      have hsnoc : ∀ (ev : ClientEvent), repo (((s.log ++ [(ev, now)]).map Prod.fst).flatMap subOps)
          = (subOps ev).foldl applyOp s.messaging.subscriptions := by
        intro ev
        rw [ih]
        simp [repo, List.foldl_append]
      unfold stepHandler
      split
      · split
        · exact ih
        · dsimp only
          split
          · rename_i hn
            rw [hsnoc, handle_none _ _ _ _ hn]
            rfl
          · rename_i hn
            rw [hsnoc]
            exact handle_repo _ _ _ _ _ _ hn
          · rename_i hn
            rw [hsnoc]
            exact handle_repo _ _ _ _ _ _ hn
      · exact ih
      · dsimp only
        split
        · split <;> exact ih
        · exact ih
      · exact ih
      · exact ih
    | ctrlC => exact ih
    | stop =>
      simp only [step]
      split
      · split <;> exact ih
      · exact ih

/-- A list without repetitions has as many members as any other with the same members. -/
theorem nodup_length {α : Type} [BEq α] [LawfulBEq α] {l l' : List α} (h : l.Nodup) (h' : l'.Nodup) (hm : ∀ a, a ∈ l ↔ a ∈ l') :
    l.length = l'.length := by
  have : l.Perm l' := by
    rw [List.perm_iff_count]
    intro a
    rw [h.count, h'.count]
    simp only [hm]
  exact this.length_eq

/-- C94, the part that holds, and what is the case: in every execution the tree has exactly one node for each beginning of the levels of a
filter named in any SUBSCRIBE or UNSUBSCRIBE taken so far (`L` lists them). So nothing else makes it grow; but nothing makes it shrink,
see `C94_memory_fails`. -/
theorem C94_nodes_partial (env : Env) (peers : ConnId → Peer) (sched : List Step) (L : List (List String)) (hL : L.Nodup)
    (hm : ∀ p, p ∈ L ↔ p = [] ∨ ∃ f ∈ (((run env (init peers) sched).log.map Prod.fst).flatMap subOps).flatMap SubOp.named,
      ∃ ls, Levels f ls ∧ p <+: ls) :
    (run env (init peers) sched).messaging.subscriptions.root.count = L.length := by
  rw [tree_run, ← Node.length_paths]
  obtain ⟨h1, h2⟩ := paths_repo (((run env (init peers) sched).log.map Prod.fst).flatMap subOps)
  refine nodup_length h1 hL fun p => ?_
  rw [h2, hm]
  constructor
  · rintro (h | ⟨f, hf, h⟩)
    · exact .inl h
    · exact .inr ⟨f, hf, _, levels_splitTopic f, h⟩
  · rintro (h | ⟨f, hf, ls, hls, h⟩)
    · exact .inl h
    · exact .inr ⟨f, hf, by rw [← levels_unique hls]; exact h⟩

/-- A client that unsubscribes from a filter and leaves. -/
def leakPackets (f : String) : List ClientPacket := [hello "c", .unsubscribe 1 [f], .disconnect]

/-- What such clients do, one after the other. -/
def leakEvents (peers : ConnId → Peer) (f : Nat → String) (n : Nat) : List ClientEvent :=
  (List.range n).flatMap fun c =>
    [.connected ⟨.mqtt3, "c", 60, true, none, none, none⟩ (peers c).addr c, .controlPacket "c" (.unsubscribe ⟨1, [f c]⟩) c,
      .controlPacket "c" .disconnect c]

theorem leakEvents_from (peers : ConnId → Peer) (f : Nat → String) (n : Nat) (c : ConnId) :
    (leakEvents peers f n).filter (From c) = if c < n then
      [.connected ⟨.mqtt3, "c", 60, true, none, none, none⟩ (peers c).addr c, .controlPacket "c" (.unsubscribe ⟨1, [f c]⟩) c,
        .controlPacket "c" .disconnect c] else [] := by
  unfold leakEvents
  induction n with
  | zero => simp
  | succ n ih =>
    rw [List.range_succ, List.flatMap_append, List.filter_append, ih]
    by_cases h : c = n
    · subst h
      simp [From]
    · have h' : ¬ n = c := fun e => h e.symm
      by_cases hc : (c : Nat) < n
      · have : (c : Nat) < n + 1 := Nat.lt_succ_of_lt hc
        simp [From, h', hc, this]
      · have : ¬ (c : Nat) < n + 1 := fun h' => (Nat.lt_succ_iff_lt_or_eq.mp h').elim hc h
        simp [From, h', hc, this]

theorem leak_after (auth : IdentityProvider) (peers : ConnId → Peer) (f : Nat → String) (n : Nat) :
    Broker.start.after auth (leakEvents peers f n) = some Broker.start := by
  unfold leakEvents
  induction n with
  | zero => rfl
  | succ n ih =>
    rw [List.range_succ, List.flatMap_append, after_append, ih]
    simp only [List.flatMap_cons, List.flatMap_nil, List.append_nil, Option.bind_some, Broker.after, Broker.step, login, Broker.packet]
    simp [Broker.start, Broker.forget, SubOp.client, Entries.counting, Entries.unsubscribe, Entries.filtersOf]
    funext c
    split
    · rfl
    · rfl

theorem leak_outputs (auth : IdentityProvider) (peers : ConnId → Peer) (f : Nat → String) (n : Nat) (d : ConnId) :
    (Broker.start.outputs auth (leakEvents peers f n) d).length ≤ if d < n then 2 else 0 := by
  induction n with
  | zero => simp [leakEvents, Broker.outputs]
  | succ n ih =>
    have hs : leakEvents peers f (n + 1) = leakEvents peers f n ++
        [.connected ⟨.mqtt3, "c", 60, true, none, none, none⟩ (peers n).addr n, .controlPacket "c" (.unsubscribe ⟨1, [f n]⟩) n,
          .controlPacket "c" .disconnect n] := by
      unfold leakEvents
      rw [List.range_succ, List.flatMap_append]
      simp
    rw [hs, outputs_append, leak_after]
    simp only [Broker.outputs, Broker.step, login, Broker.packet, to, nothing, List.length_append]
    by_cases h : d = n
    · subst h
      have : ¬ d < d := Nat.lt_irrefl d
      have h' : d < d + 1 := Nat.lt_succ_self d
      rw [if_neg this] at ih
      simp [h']
      exact List.eq_nil_of_length_eq_zero (Nat.le_zero.mp ih)
    · by_cases hc : (d : Nat) < n
      · have : (d : Nat) < n + 1 := Nat.lt_succ_of_lt hc
        simp only [if_pos hc, if_pos this] at ih ⊢
        simpa [h] using ih
      · have : ¬ (d : Nat) < n + 1 := fun h' => (Nat.lt_succ_iff_lt_or_eq.mp h').elim hc h
        simp only [if_neg hc, if_neg this] at ih ⊢
        simpa [h] using ih

theorem leak_sendable {f : String} (hf : (utf8 f).length ≤ 1000) : Sendable (leakPackets f) ∧ (clientBytes (leakPackets f)).length < 4096 := by
  have hr : (clientRest (.unsubscribe 1 [f])).length ≤ 1004 := by
    simp [clientRest, str, twoBytes]
    omega
  constructor
  · intro c hc
    simp only [leakPackets, List.mem_cons, List.not_mem_nil, or_false] at hc
    rcases hc with rfl | rfl | rfl
    · exact hello_sendable "c" (by unfold Fits; decide +kernel) (by decide +kernel)
    · refine ⟨⟨by simp, fun g hg => ?_⟩, trivial, by omega⟩
      rw [List.mem_singleton.mp hg]
      exact Nat.lt_of_le_of_lt hf (by decide)
    · exact ⟨trivial, trivial, by decide⟩
  · have h1 : (packet (clientFirst (hello "c")) (clientRest (hello "c"))).length = 15 := by decide +kernel
    have h3 : (packet (clientFirst .disconnect) (clientRest .disconnect)).length = 2 := by decide +kernel
    have h2 : (packet (clientFirst (.unsubscribe 1 [f])) (clientRest (.unsubscribe 1 [f]))).length ≤ 1010 := by
      have := length_varInt_small (n := (clientRest (.unsubscribe 1 [f])).length) (by omega)
      simp only [packet, List.length_append, List.length_cons]
      omega
    simp only [clientBytes, leakPackets, List.flatMap_cons, List.flatMap_nil, List.length_append, List.append_nil, h1, h3]
    omega

theorem leak_named (peers : ConnId → Peer) (f : Nat → String) (n : Nat) (g : String) :
    g ∈ ((leakEvents peers f n).flatMap subOps).flatMap SubOp.named ↔ ∃ i, i < n ∧ f i = g := by
  have : ((leakEvents peers f n).flatMap subOps).flatMap SubOp.named = (List.range n).map f := by
    unfold leakEvents
    induction n with
    | zero => rfl
    | succ n ih =>
      rw [List.range_succ, List.flatMap_append, List.flatMap_append, List.flatMap_append, ih]
      simp [subOps, SubOp.named]
  rw [this]
  simp

theorem empty_sessions {m : AssocMap Session} (h : ∀ k, m.get? k = none) : m = [] := by
  cases m with
  | nil => rfl
  | cons kv m =>
    obtain ⟨k, v⟩ := kv
    have := h k
    simp [AssocMap.get?] at this

/-- C94 is violated: `n` connections, one after the other, each unsubscribe from a filter of their own and leave. There is an execution in
which all this is done, nobody is connected any more, nobody is subscribed to anything, and yet the tree has `n + 1` nodes; for every
`n` and all sorts of filters. -/
theorem C94_memory_fails (env : Env) (peers : ConnId → Peer) (n : Nat) (f : Nat → String)
    (hf : ∀ i, i < n → (utf8 (f i)).length ≤ 1000 ∧ '/' ∉ (f i).toList)
    (hinj : ∀ i j, i < n → j < n → f i = f j → i = j)
    (hb : ∀ c, c < n → (peers c).segs.flatten = clientBytes (leakPackets (f c))) :
    ∃ sched, (run env (init peers) sched).handler = .idle
      ∧ (run env (init peers) sched).messaging.sessions.count = 0
      ∧ (∀ c t, deliveries (run env (init peers) sched).messaging.subscriptions c t = 0)
      ∧ (run env (init peers) sched).messaging.subscriptions.root.count = n + 1 := by
  obtain ⟨sched, h1, h2, _⟩ := C77_any_interleaving env peers (fun c => if c < n then leakPackets (f c) else [])
    (fun c hc => by
      by_cases h : c < n
      · simp only [if_pos h]; exact hb c h
      · simp [h] at hc)
    (fun c => by
      by_cases h : c < n
      · simp only [if_pos h]; exact (leak_sendable (hf c h).1).1
      · simp [h, Sendable])
    (fun c => by
      by_cases h : c < n
      · simp only [if_pos h]; exact (leak_sendable (hf c h).1).2
      · simp [h, clientBytes])
    (leakEvents peers f n)
    (fun ev hev => by
      obtain ⟨c, _, hc⟩ := List.mem_flatMap.mp hev
      simp only [List.mem_cons, List.not_mem_nil, or_false] at hc
      rcases hc with rfl | rfl | rfl <;> exact ⟨c, rfl⟩)
    (fun c => by
      rw [leakEvents_from]
      by_cases h : c < n
      · simp [h, leakPackets, hello, meaning, eventsOf, idOf]
      · simp [h])
    (fun p addr c hp => by
      obtain ⟨c, _, hc⟩ := List.mem_flatMap.mp hp
      simp only [List.mem_cons, List.not_mem_nil, or_false] at hc
      rcases hc with h | h | h <;> cases h
      simp [login])
    (fun d => by
      have := leak_outputs env.auth peers f n d
      split at this <;> omega)
  refine ⟨sched, h1, ?_⟩
  cases (inv_run env peers sched).serves with
  | sending _ _ _ _ _ _ h' => rw [h1] at h'; cases h'
  | failed _ _ _ h' => rw [h1] at h'; cases h'
  | broken _ _ _ _ _ _ h' => rw [h1] at h'; cases h'
  | rest b _ ha hr _ =>
    rw [served, h2, leak_after] at ha
    cases ha
    refine ⟨?_, fun c t => ?_, ?_⟩
    · have : (run env (init peers) sched).messaging.sessions.sessions = [] := by
        refine empty_sessions fun k => ?_
        have := hr.session k
        simpa [Broker.start, SessionRepository.get] using this
      unfold SessionRepository.count
      rw [this]
      rfl
    · rw [deliveries_copies hr.subs]
      rfl
    · have := C94_nodes_partial env peers sched ([] :: (List.range n).map fun i => [f i])
        (by
          rw [List.nodup_cons]
          refine ⟨by simp, ?_⟩
          unfold List.Nodup
          rw [List.pairwise_map]
          refine List.Pairwise.imp_of_mem ?_ List.nodup_range
          intro i j hi hj hij he
          exact hij (hinj i j (List.mem_range.mp hi) (List.mem_range.mp hj) (List.cons.inj he).1))
        (by
          intro p
          have hlev : ∀ i, i < n → Levels (f i) [f i] := fun i hi =>
            ⟨by simp, fun l hl => by rw [List.mem_singleton.mp hl]; exact (hf i hi).2, rfl⟩
          rw [h2, List.mem_cons, List.mem_map]
          constructor
          · rintro (h | ⟨i, hi, rfl⟩)
            · exact .inl h
            · exact .inr ⟨f i, (leak_named peers f n (f i)).mpr ⟨i, List.mem_range.mp hi, rfl⟩, [f i], hlev i (List.mem_range.mp hi),
                List.prefix_refl _⟩
          · rintro (h | ⟨g, hg, ls, hls, hp⟩)
            · exact .inl h
            · obtain ⟨i, hi, rfl⟩ := (leak_named peers f n g).mp hg
              have : ls = [f i] := (levels_unique hls).trans (levels_unique (hlev i hi)).symm
              subst this
              cases p with
              | nil => exact .inl rfl
              | cons a p =>
                rw [List.cons_prefix_cons, List.prefix_nil] at hp
                obtain ⟨rfl, rfl⟩ := hp
                exact .inr ⟨i, List.mem_range.mpr hi, rfl⟩)
      simpa using this

-- a hundred clients
example (env : Env) : let f := fun i : Nat => toString i
    ∃ sched, (run env (init fun c => ⟨someAddr, "u", [clientBytes (leakPackets (f c))], .eof, []⟩) sched).messaging.sessions.count = 0
      ∧ (run env (init fun c => ⟨someAddr, "u", [clientBytes (leakPackets (f c))], .eof, []⟩) sched).messaging.subscriptions.root.count = 101 := by
  intro f
  have h1 : ∀ i, i < 100 → (utf8 (f i)).length ≤ 1000 ∧ '/' ∉ (f i).toList := by decide +kernel
  have h2 : ∀ i, i < 100 → ∀ j, j < 100 → f i = f j → i = j := by decide +kernel
  obtain ⟨sched, _, h3, _, h4⟩ := C94_memory_fails env (fun c => ⟨someAddr, "u", [clientBytes (leakPackets (f c))], .eof, []⟩) 100 f h1
    (fun i j hi hj => h2 i hi j hj) (fun c _ => by simp)
  exact ⟨sched, h3, h4⟩

end Ratel
